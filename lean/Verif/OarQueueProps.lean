import Verif.OarQueueSpec
import Verif.QueuesProps
import Verif.ToolsProps

namespace Oar.OarQueue

open Oar.Tools

theorem fields_csv (n : String) (p : Int) (pol : String) (hn : ',' ∉ n.toList) (hp : ',' ∉ pol.toList) :
    fields (csv n p pol) = some (n, p, pol) := by
  have h1 : ∀ x ∈ n.toList, x ≠ ',' := fun x hx e => hn (e ▸ hx)
  have h2 : ∀ x ∈ pol.toList, x ≠ ',' := fun x hx e => hp (e ▸ hx)
  have h3 : ∀ x ∈ str p, x ≠ ',' := by
    intro x hx e
    subst e
    have hd : ∀ k : Nat, ',' ∉ digits k := by
      intro k hk
      have := List.all_eq_true.1 (digits_spec k).2.1 _ hk
      exact absurd this (by decide)
    unfold str at hx
    split at hx
    · rcases List.mem_cons.1 hx with h | h
      · exact absurd h (by decide)
      · exact hd _ h
    · exact hd _ hx
  unfold fields csv
  rw [String.toList_ofList, split_cons_sep _ _ _ h1, split_cons_sep _ _ _ h3, split_nil_sep _ _ h2]
  show Option.map _ (pyInt (str p)) = _
  rw [pyInt_str]
  simp

theorem csv_ne (n : String) (p : Int) (pol : String) : csv n p pol ≠ "" := by
  intro h
  have := congrArg String.toList h
  unfold csv at this
  rw [String.toList_ofList] at this
  simp at this

theorem row_map (t : List QRow) (f : QRow → QRow) (hf : ∀ q, (f q).name = q.name) (m : String) :
    row (t.map f) m = ((t.find? (fun q => q.name == m)).map f).map (fun q => (q.priority, q.policy, q.state)) := by
  unfold row
  rw [List.find?_map]
  have : ((fun q : QRow => q.name == m) ∘ f) = (fun q => q.name == m) := by
    funext q; simp [hf q]
  rw [this]

theorem found_name {t : List QRow} {m : String} {q : QRow} (h : t.find? (fun q => q.name == m) = some q) : q.name = m := by
  have := List.find?_some h
  simpa using this

theorem map_unique (t : List QRow) (f : QRow → QRow) (hf : ∀ q, (f q).name = q.name) (h : Unique t) : Unique (t.map f) := by
  unfold Unique at *
  rw [List.map_map]
  have : QRow.name ∘ f = QRow.name := by funext q; exact hf q
  rw [this]; exact h

theorem status_zero (t : List QRow) (pr : List QRow) : status { table := t, printed := pr } = 0 := by simp [status, Cli.exitValue, Cli.exitLoop]

/-- What the command does for an administrator. -/
theorem admin_operate (env : String → Option String) (order : List QRow → List QRow) (t : List QRow) (a : Args) (ha : Admin env)
    (hv : a.version = false) : oarqueue env order t a = operate order t a := by
  obtain ⟨u, hu, h⟩ := ha
  unfold oarqueue userOf
  rw [if_neg (by rw [hv]; exact Bool.false_ne_true), hu]
  rcases h with ⟨h, h'⟩ | h | h
  · rw [h]; show (if u = "oar" ∨ u = "root" then _ else _) = _; rw [if_pos h']
  · rw [h]; rfl
  · rw [h]; rfl

/-- C83. The administrators are the only ones who change or read the queues: for somebody else nothing changes, nothing is printed and
the exit status is 8, whatever the options but `--version`. -/
theorem only_admin (env : String → Option String) (order : List QRow → List QRow) (t : List QRow) (a : Args) (ho : Other env)
    (hv : a.version = false) :
    (cli env order t a).table = t ∧ (cli env order t a).printed = [] ∧ status (cli env order t a) = 8 := by
  have key : ∀ b : Args, b.version = false → oarqueue env order t b = { table := t, ret := ⟨[8], 0⟩ } := by
    intro b hb
    obtain ⟨u, hu, h⟩ := ho
    unfold oarqueue userOf
    rw [if_neg (by rw [hb]; exact Bool.false_ne_true), hu]
    rcases h with ⟨h, h1, h2⟩ | ⟨v, h, h1, h2⟩
    · rw [h]; show (if u = "oar" ∨ u = "root" then _ else _) = _
      rw [if_neg (fun e => e.elim h1 h2)]
    · rw [h]; show (if v = "oar" ∨ v = "root" then _ else _) = _
      rw [if_neg (fun e => e.elim h1 h2)]
  have : cli env order t a = { table := t, ret := ⟨[8], 0⟩ } := by
    unfold cli
    apply key
    split
    · exact hv
    · exact hv
  rw [this]
  exact ⟨rfl, rfl, by simp [status, Cli.exitValue, Cli.exitLoop]⟩

example : Other (fun k => if k = "USER" then some "root" else if k = "OARDO_USER" then some "bob" else none) :=
  ⟨"root", rfl, .inr ⟨"bob", by decide, by decide, by decide⟩⟩

/-- C83. `--version` is open to all and changes nothing. -/
theorem version_free (env : String → Option String) (order : List QRow → List QRow) (t : List QRow) (a : Args) (hv : a.version = true) :
    (cli env order t a).table = t ∧ status (cli env order t a) = 0 := by
  have : cli env order t a = { table := t, ret := ⟨[0], 0⟩ } := by
    unfold cli oarqueue
    rw [if_pos (by split <;> exact hv)]
  rw [this]; exact ⟨rfl, by simp [status, Cli.exitValue, Cli.exitLoop]⟩

theorem cli_op (env : String → Option String) (order : List QRow → List QRow) (t : List QRow) (ha : Admin env) (o : Op) (h : o.Typed) :
    cli env order t o.args = operate order t o.args := by
  have hn : o.args.none? = false := by
    cases o <;> simp_all [Op.args, Args.none?, Op.Typed, csv_ne]
  unfold cli
  rw [if_neg (by rw [hn]; exact Bool.false_ne_true)]
  exact admin_operate env order t _ ha (by cases o <;> rfl)

/-- C83. Each operation typed by an administrator does exactly what it means: the queue named changes in the fields of the operation, the
others do not change, names stay unique, the exit status is 0. An addition asks for a new name. -/
theorem operation_exact (env : String → Option String) (order : List QRow → List QRow) (t : List QRow) (ha : Admin env) (hu : Unique t)
    (o : Op) (h : o.Typed) (hnew : ∀ n p pol, o = .add n p pol → row t n = none) :
    Unique (cli env order t o.args).table ∧ (∀ m, row (cli env order t o.args).table m = o.want (row t) m) ∧
      status (cli env order t o.args) = 0 := by
  rw [cli_op env order t ha o h]
  cases o with
  | enable n =>
    have e : operate order t (Op.args (.enable n)) = { table := setState t n "Active" } := by
      unfold operate; rw [if_neg (by simp [Op.args])]; exact if_pos h
    rw [e]
    refine ⟨map_unique t _ (fun q => by split <;> rfl) hu, fun m => ?_, status_zero _ _⟩
    show row (setState t n "Active") m = _
    rw [setState, row_map t _ (fun q => by split <;> rfl)]
    show _ = if m = n then (row t m).map _ else row t m
    unfold row
    cases hf : t.find? (fun q => q.name == m) with
    | none => simp
    | some q =>
      have := found_name hf
      by_cases e : m = n <;> simp [this, e]
  | disable n =>
    have e : operate order t (Op.args (.disable n)) = { table := setState t n "notActive" } := by
      unfold operate; rw [if_neg (by simp [Op.args]), if_neg (by simp [Op.args])]; exact if_pos h
    rw [e]
    refine ⟨map_unique t _ (fun q => by split <;> rfl) hu, fun m => ?_, status_zero _ _⟩
    show row (setState t n "notActive") m = _
    rw [setState, row_map t _ (fun q => by split <;> rfl)]
    show _ = if m = n then (row t m).map _ else row t m
    unfold row
    cases hf : t.find? (fun q => q.name == m) with
    | none => simp
    | some q =>
      have := found_name hf
      by_cases e : m = n <;> simp [this, e]
  | enableAll =>
    refine ⟨map_unique t _ (fun q => rfl) hu, fun m => ?_, status_zero _ _⟩
    show row (setAll t "Active") m = (row t m).map _
    rw [setAll, row_map t (fun q => { q with state := "Active" }) (fun q => rfl)]
    unfold row
    cases hf : t.find? (fun q => q.name == m) <;> simp
  | disableAll =>
    refine ⟨map_unique t _ (fun q => rfl) hu, fun m => ?_, status_zero _ _⟩
    show row (setAll t "notActive") m = (row t m).map _
    rw [setAll, row_map t (fun q => { q with state := "notActive" }) (fun q => rfl)]
    unfold row
    cases hf : t.find? (fun q => q.name == m) <;> simp
  | add n p pol =>
    have hr := hnew n p pol rfl
    have hany : t.find? (fun q => q.name == n) = none := by
      unfold row at hr; simpa using hr
    have hno : ¬ (t.any (fun q => q.name == n) = true) := by
      rw [List.find?_eq_none] at hany
      intro hc
      obtain ⟨q, hq, he⟩ := List.any_eq_true.1 hc
      exact hany q hq he
    have e : operate order t (Op.args (.add n p pol)) = { table := t ++ [⟨n, p, pol, "Active"⟩] } := by
      have hf := fields_csv n p pol h.1 h.2
      unfold operate
      rw [if_neg (by simp [Op.args]), if_neg (by simp [Op.args]), if_neg (by simp [Op.args]), if_neg (by simp [Op.args]),
        if_neg (by simp [Op.args]), if_pos (show (Op.args (.add n p pol)).add ≠ "" from csv_ne n p pol)]
      show (match fields (csv n p pol) with | none => _ | some (n, p, pol) => _) = _
      rw [hf]
      show (match create t n p pol with | none => _ | some t' => _) = _
      unfold create
      rw [if_neg hno]
    rw [e]
    refine ⟨?_, fun m => ?_, status_zero _ _⟩
    · unfold Unique at *
      show ((t ++ [(⟨n, p, pol, "Active"⟩ : QRow)]).map QRow.name).Nodup
      rw [List.map_append, List.nodup_append]
      refine ⟨hu, by simp, ?_⟩
      intro a hA b hb
      obtain ⟨q, hq, rfl⟩ := List.mem_map.1 hA
      simp only [List.map_cons, List.map_nil, List.mem_singleton] at hb
      subst hb
      intro e
      exact (List.find?_eq_none.1 hany) q hq (by simp [e])
    · show row (t ++ [(⟨n, p, pol, "Active"⟩ : QRow)]) m = if m = n then some (p, pol, "Active") else row t m
      unfold row
      rw [List.find?_append]
      by_cases e : m = n
      · subst e; rw [hany, if_pos rfl]; simp
      · rw [if_neg e]
        have : ([⟨n, p, pol, "Active"⟩] : List QRow).find? (fun q => q.name == m) = none := by
          simp [Ne.symm e]
        rw [this]; simp
  | change n p pol =>
    have e : operate order t (Op.args (.change n p pol)) = { table := OarQueue.change t n p pol } := by
      have hf := fields_csv n p pol h.1 h.2
      unfold operate
      rw [if_neg (by simp [Op.args]), if_neg (by simp [Op.args]), if_neg (by simp [Op.args]), if_neg (by simp [Op.args]),
        if_neg (by simp [Op.args]), if_neg (by simp [Op.args]),
        if_pos (show (Op.args (.change n p pol)).change ≠ "" from csv_ne n p pol)]
      show (match fields (csv n p pol) with | none => _ | some (n, p, pol) => _) = _
      rw [hf]
    rw [e]
    refine ⟨map_unique t _ (fun q => by split <;> rfl) hu, fun m => ?_, status_zero _ _⟩
    show row (OarQueue.change t n p pol) m = if m = n then (row t m).map _ else row t m
    rw [OarQueue.change, row_map t _ (fun q => by split <;> rfl)]
    unfold row
    cases hf : t.find? (fun q => q.name == m) with
    | none => simp
    | some q =>
      have := found_name hf
      by_cases e : m = n <;> simp [this, e]
  | remove n =>
    have e : operate order t (Op.args (.remove n)) = { table := OarQueue.remove t n } := by
      unfold operate
      rw [if_neg (by simp [Op.args]), if_neg (by simp [Op.args]), if_neg (by simp [Op.args]), if_neg (by simp [Op.args]),
        if_neg (by simp [Op.args]), if_neg (by simp [Op.args]), if_neg (by simp [Op.args])]
      exact if_pos h
    rw [e]
    refine ⟨?_, fun m => ?_, status_zero _ _⟩
    · exact List.Sublist.nodup (List.Sublist.map _ List.filter_sublist) hu
    · show row (OarQueue.remove t n) m = if m = n then none else row t m
      unfold row OarQueue.remove
      rw [List.find?_filter]
      by_cases e : m = n
      · subst e
        rw [if_pos rfl]
        have : t.find? (fun a => decide (decide (a.name ≠ m) = true ∧ (a.name == m) = true)) = none := by
          rw [List.find?_eq_none]; intro q _ hq; simp at hq
        rw [this]; rfl
      · rw [if_neg e]
        have : (fun a : QRow => decide (decide (a.name ≠ n) = true ∧ (a.name == m) = true)) = (fun a => a.name == m) := by
          funext a
          by_cases h1 : a.name = m
          · simp [h1, e]
          · simp [h1]
        rw [this]

example : Admin (fun k => if k = "USER" then some "bob" else if k = "OARDO_USER" then some "oar" else none) :=
  ⟨"bob", rfl, .inr (.inl rfl)⟩

example : Unique [⟨"default", 3, "kamelot", "Active"⟩, ⟨"besteffort", 0, "kamelot", "notActive"⟩] ∧ (Op.add "admin" (-2) "fifo").Typed ∧
    (Op.add "admin" (-2) "fifo").args.add = "admin,-2,fifo" := by
  refine ⟨?_, ⟨by decide, by decide⟩, by decide +kernel⟩
  unfold Unique; decide

/-- The tables after the operations of an administrator, one command each. -/
def history (env : String → Option String) (order : List QRow → List QRow) : List QRow → List Op → List QRow
  | t, [] => t
  | t, o :: os => history env order (cli env order t o.args).table os

/-- The operations that can be done in turn: an addition asks for a name not in use. -/
def Doable : (String → Option (Int × String × String)) → List Op → Prop
  | _, [] => True
  | f, o :: os => o.Typed ∧ (∀ n p pol, o = .add n p pol → f n = none) ∧ Doable (o.want f) os

/-- C83. Any history of operations gives the queues obtained by applying their meaning in turn. -/
theorem history_exact (env : String → Option String) (order : List QRow → List QRow) (ha : Admin env) (ops : List Op) (t : List QRow)
    (hu : Unique t) (hd : Doable (row t) ops) :
    Unique (history env order t ops) ∧ ∀ m, row (history env order t ops) m = ops.foldl (fun f o => o.want f) (row t) m := by
  induction ops generalizing t with
  | nil => exact ⟨hu, fun _ => rfl⟩
  | cons o os ih =>
    obtain ⟨h1, h2, h3⟩ := hd
    obtain ⟨a1, a2, _⟩ := operation_exact env order t ha hu o h1 h2
    have e : row (cli env order t o.args).table = o.want (row t) := funext a2
    have := ih (cli env order t o.args).table a1 (by rw [e]; exact h3)
    rw [e] at this
    exact this

example : Doable (row [⟨"default", 3, "kamelot", "Active"⟩]) [.add "q" 2 "fifo", .disable "q", .remove "q", .add "q" 5 "fifo"] := by
  refine ⟨⟨by decide, by decide⟩, ?_, (show "q" ≠ "" by decide), nofun, (show "q" ≠ "" by decide), nofun, ⟨by decide, by decide⟩, ?_, trivial⟩
  · intro n p pol h; cases h; decide
  · intro n p pol h; cases h; rfl

/-! ## Effect on the scheduling -/

/-- The queues given to the scheduler by a round of the meta-scheduler that reads the rows of a table. -/
def Scheduled (t : List QRow) (n : String) : Prop :=
  ∀ rows : List Queues.Queue, rows.Perm (t.map QRow.view) → n ∈ (Queues.scheduledGroups rows).flatten

theorem scheduled_iff (t : List QRow) (hu : Unique t) (n : String) (rows : List Queues.Queue) (hp : rows.Perm (t.map QRow.view)) :
    n ∈ (Queues.scheduledGroups rows).flatten ↔ ∃ p pol, row t n = some (p, pol, "Active") := by
  rw [(Queues.active_queues_scheduled (t.map QRow.view) rows hp).mem_iff]
  constructor
  · intro h
    obtain ⟨q', hq', rfl⟩ := List.mem_map.1 h
    obtain ⟨h1, h2⟩ := List.mem_filter.1 hq'
    obtain ⟨q, hq, rfl⟩ := List.mem_map.1 h1
    have hs : q.state = "Active" := by simpa [QRow.view] using h2
    refine ⟨q.priority, q.policy, ?_⟩
    have : t.find? (fun r => r.name == q.name) = some q := by
      clear hp h h2 hq' h1
      induction t with
      | nil => simp at hq
      | cons x xs ih =>
        unfold Unique at *
        rw [List.map_cons, List.nodup_cons] at hu
        rcases List.mem_cons.1 hq with rfl | hq
        · simp
        · have : x.name ≠ q.name := fun e => hu.1 (e ▸ List.mem_map_of_mem hq)
          rw [List.find?_cons_of_neg (by simp [this])]
          exact ih hu.2 hq
    show row t q.name = _
    unfold row
    rw [this, ← hs]; rfl
  · rintro ⟨p, pol, h⟩
    unfold row at h
    cases hf : t.find? (fun q => q.name == n) with
    | none => rw [hf] at h; simp at h
    | some q =>
      rw [hf] at h
      have hn := found_name hf
      have hm := List.mem_of_find?_eq_some hf
      simp only [Option.map_some, Option.some.injEq, Prod.mk.injEq] at h
      refine List.mem_map.2 ⟨q.view, List.mem_filter.2 ⟨List.mem_map_of_mem hm, ?_⟩, hn⟩
      simp [QRow.view, h.2.2]

/-- C83. A queue disabled or removed is not scheduled any more, and an existing queue enabled is scheduled at the next round, whatever the
order of the rows read. -/
theorem scheduling_effect (env : String → Option String) (order : List QRow → List QRow) (t : List QRow) (ha : Admin env) (hu : Unique t)
    (n : String) (hn : n ≠ "") (rows : List Queues.Queue) :
    (rows.Perm ((cli env order t (Op.disable n).args).table.map QRow.view) → n ∉ (Queues.scheduledGroups rows).flatten) ∧
    (rows.Perm ((cli env order t (Op.remove n).args).table.map QRow.view) → n ∉ (Queues.scheduledGroups rows).flatten) ∧
    (rows.Perm ((cli env order t (Op.enable n).args).table.map QRow.view) → row t n ≠ none →
      n ∈ (Queues.scheduledGroups rows).flatten) := by
  refine ⟨fun hp => ?_, fun hp => ?_, fun hp hr => ?_⟩
  · obtain ⟨h1, h2, _⟩ := operation_exact env order t ha hu (.disable n) hn nofun
    rw [scheduled_iff _ h1 n rows hp, h2 n]
    rintro ⟨p, pol, h⟩
    simp only [Op.want, if_true] at h
    cases hr : row t n with
    | none => rw [hr] at h; simp at h
    | some x =>
      rw [hr] at h
      simp only [Option.map_some, Option.some.injEq, Prod.mk.injEq] at h
      exact absurd h.2.2 (by decide)
  · obtain ⟨h1, h2, _⟩ := operation_exact env order t ha hu (.remove n) hn nofun
    rw [scheduled_iff _ h1 n rows hp, h2 n]
    rintro ⟨p, pol, h⟩
    simp [Op.want] at h
  · obtain ⟨h1, h2, _⟩ := operation_exact env order t ha hu (.enable n) hn nofun
    rw [scheduled_iff _ h1 n rows hp, h2 n]
    cases hx : row t n with
    | none => exact absurd hx hr
    | some x => exact ⟨x.1, x.2.1, by simp [Op.want, hx]⟩

/-- C83. The list shows every queue once, by decreasing priority, and changes nothing: for `-l` and without option. -/
theorem list_exact (env : String → Option String) (order : List QRow → List QRow)
    (ho : ∀ l, (order l).Perm l ∧ (order l).Pairwise (fun a b => b.priority ≤ a.priority)) (t : List QRow) (ha : Admin env) (a : Args)
    (h : a = {} ∨ a = { list := true }) :
    (cli env order t a).table = t ∧ (cli env order t a).printed.Perm t ∧
      (cli env order t a).printed.Pairwise (fun a b => b.priority ≤ a.priority) ∧ status (cli env order t a) = 0 := by
  have e : cli env order t a = { table := t, printed := order t } := by
    have : cli env order t a = oarqueue env order t { list := true } := by
      rcases h with rfl | rfl <;> rfl
    rw [this, admin_operate env order t _ ha rfl]
    exact if_pos rfl
  rw [e]
  exact ⟨rfl, (ho t).1, (ho t).2, by simp [status, Cli.exitValue, Cli.exitLoop]⟩

/-- C83. A command that stops on an exception changes nothing, and its exit status is not 0. -/
theorem error_changes_nothing (env : String → Option String) (order : List QRow → List QRow) (t : List QRow) (a : Args)
    (h : (cli env order t a).raised = true) : (cli env order t a).table = t ∧ status (cli env order t a) = 1 := by
  refine ⟨?_, if_pos h⟩
  have op : ∀ b : Args, (operate order t b).raised = true → (operate order t b).table = t := by
    intro b hb
    unfold operate at hb ⊢
    repeat' split at hb
    all_goals first | (exfalso; exact Bool.false_ne_true hb) | simp_all
  have oq : ∀ b : Args, (oarqueue env order t b).raised = true → (oarqueue env order t b).table = t := by
    intro b hb
    unfold oarqueue at hb ⊢
    split
    · rfl
    · rename_i hv
      rw [if_neg hv] at hb
      cases hu : userOf env with
      | none => rfl
      | some u =>
        rw [hu] at hb
        dsimp only at hb ⊢
        split
        · rename_i hc; rw [if_pos hc] at hb; exact op b hb
        · rfl
  exact oq _ h

/-- C83. The name of an addition already in use, a text without exactly three fields, a priority that is not a number: the command stops on an
exception. -/
theorem bad_arguments (env : String → Option String) (order : List QRow → List QRow) (t : List QRow) (ha : Admin env) :
    (∀ n p pol, ',' ∉ n.toList → ',' ∉ pol.toList → row t n ≠ none → (cli env order t { add := csv n p pol }).raised = true) ∧
    (∀ s : String, s ≠ "" → (split ',' s.toList).length ≠ 3 →
      (cli env order t { add := s }).raised = true ∧ (cli env order t { change := s }).raised = true) ∧
    (∀ n p pol : String, ',' ∉ n.toList → ',' ∉ p.toList → ',' ∉ pol.toList → pyInt p.toList = none →
      (cli env order t { add := n ++ "," ++ p ++ "," ++ pol }).raised = true ∧
      (cli env order t { change := n ++ "," ++ p ++ "," ++ pol }).raised = true) := by
  have hadd : ∀ s : String, s ≠ "" → fields s = none → (cli env order t { add := s }).raised = true := by
    intro s hs hf
    have : cli env order t { add := s } = operate order t { add := s } := by
      unfold cli
      rw [if_neg (by simp [Args.none?, hs])]
      exact admin_operate env order t _ ha rfl
    rw [this]
    simp [operate, hs, hf]
  have hch : ∀ s : String, s ≠ "" → fields s = none → (cli env order t { change := s }).raised = true := by
    intro s hs hf
    have : cli env order t { change := s } = operate order t { change := s } := by
      unfold cli
      rw [if_neg (by simp [Args.none?, hs])]
      exact admin_operate env order t _ ha rfl
    rw [this]
    simp [operate, hs, hf]
  refine ⟨?_, ?_, ?_⟩
  · intro n p pol h1 h2 hr
    have : cli env order t { add := csv n p pol } = operate order t (Op.args (.add n p pol)) := cli_op env order t ha (.add n p pol) ⟨h1, h2⟩
    rw [this]
    have hany : t.any (fun q => q.name == n) = true := by
      unfold row at hr
      cases hf : t.find? (fun q => q.name == n) with
      | none => rw [hf] at hr; exact absurd rfl hr
      | some q => exact List.any_eq_true.2 ⟨q, List.mem_of_find?_eq_some hf, by simpa using found_name hf⟩
    simp [operate, Op.args, csv_ne, fields_csv n p pol h1 h2, create, hany]
  · intro s hs hl
    have : fields s = none := by
      unfold fields
      split
      · rename_i heq; rw [heq] at hl; exact absurd rfl hl
      · rfl
    exact ⟨hadd s hs this, hch s hs this⟩
  · intro n p pol h1 h2 h3 hp
    have hne : n ++ "," ++ p ++ "," ++ pol ≠ "" := by
      intro h
      have := congrArg String.toList h
      simp at this
    have : fields (n ++ "," ++ p ++ "," ++ pol) = none := by
      have e : (n ++ "," ++ p ++ "," ++ pol).toList = n.toList ++ ',' :: (p.toList ++ ',' :: pol.toList) := by
        simp
      unfold fields
      rw [e, split_cons_sep _ _ _ (fun x hx e => h1 ((show x = ',' from e) ▸ hx)), split_cons_sep _ _ _ (fun x hx e => h2 ((show x = ',' from e) ▸ hx)),
        split_nil_sep _ _ (fun x hx e => h3 ((show x = ',' from e) ▸ hx))]
      show Option.map _ (pyInt p.toList) = _
      rw [hp]; rfl
    exact ⟨hadd _ hne this, hch _ hne this⟩

/-! ## Refutations -/

/-- C83, refuted. Of several operations only the first of the order of the code is done, with exit status 0: for all tables, enabling one
queue and disabling, adding or removing another one only enables. -/
theorem several_violated (env : String → Option String) (order : List QRow → List QRow) (t : List QRow) (ha : Admin env) (n d ad c r : String)
    (hn : n ≠ "") :
    (cli env order t { enable := n, disable := d, add := ad, change := c, remove := r }).table =
      (cli env order t { enable := n }).table ∧
    status (cli env order t { enable := n, disable := d, add := ad, change := c, remove := r }) = 0 := by
  have e1 : cli env order t { enable := n, disable := d, add := ad, change := c, remove := r } = { table := setState t n "Active" } := by
    unfold cli
    rw [if_neg (by simp [Args.none?, hn]), admin_operate env order t _ ha rfl]
    simp [operate, hn]
  have e2 : cli env order t { enable := n } = { table := setState t n "Active" } := by
    unfold cli
    rw [if_neg (by simp [Args.none?, hn]), admin_operate env order t _ ha rfl]
    simp [operate, hn]
  rw [e1, e2]; exact ⟨rfl, by simp [status, Cli.exitValue, Cli.exitLoop]⟩

/-- C83, refuted. With `--list` no other operation is done, with exit status 0: for all tables and operations. -/
theorem list_only_violated (env : String → Option String) (order : List QRow → List QRow) (t : List QRow) (ha : Admin env) (n d ad c r : String)
    (ea da : Bool) :
    cli env order t { list := true, enable := n, disable := d, enableAll := ea, disableAll := da, add := ad, change := c, remove := r } =
      { table := t, printed := order t } := by
  unfold cli
  rw [if_neg (by simp [Args.none?]), admin_operate env order t _ ha rfl]
  simp [operate]

/-- C83, refuted. An unknown queue is not an error: nothing changes and the exit status is 0. -/
theorem unknown_violated (env : String → Option String) (order : List QRow → List QRow) (t : List QRow) (ha : Admin env) (hu : Unique t) (n : String)
    (hn : n ≠ "") (hc : ',' ∉ n.toList) (h : row t n = none) (o : Op)
    (ho : o = .enable n ∨ o = .disable n ∨ o = .remove n ∨ o = .change n 5 "fifo") :
    (∀ m, row (cli env order t o.args).table m = row t m) ∧ status (cli env order t o.args) = 0 := by
  have ht : o.Typed := by
    rcases ho with rfl | rfl | rfl | rfl
    · exact hn
    · exact hn
    · exact hn
    · exact ⟨hc, by decide⟩
  obtain ⟨_, h2, h3⟩ := operation_exact env order t ha hu o ht (by rintro n' p pol rfl; simp at ho)
  refine ⟨fun m => ?_, h3⟩
  rw [h2 m]
  rcases ho with rfl | rfl | rfl | rfl <;> (by_cases e : m = n <;> simp [Op.want, e, h])

/-- C83, refuted. The priority cannot be changed alone nor the policy: an empty priority raises, an empty policy erases the policy. -/
theorem change_one_violated (env : String → Option String) (order : List QRow → List QRow) (t : List QRow) (ha : Admin env) (hu : Unique t)
    (n pol : String) (p : Int) (hn : ',' ∉ n.toList) (hpol : ',' ∉ pol.toList) (x : Int × String × String) (h : row t n = some x) :
    (cli env order t { change := n ++ "," ++ "" ++ "," ++ pol }).raised = true ∧
    row (cli env order t { change := csv n p "" }).table n = some (p, "", x.2.2) := by
  refine ⟨((bad_arguments env order t ha).2.2 n "" pol hn (by decide) hpol (by decide)).2, ?_⟩
  have := (operation_exact env order t ha hu (.change n p "") ⟨hn, by decide⟩ nofun).2.1 n
  show row (cli env order t (Op.args (.change n p ""))).table n = _
  rw [this]; simp [Op.want, h]

/-- C83, refuted. A queue whose name is empty can be added, and nothing then disables it or removes it: the command lists the queues instead. -/
theorem empty_name_violated (env : String → Option String) (order : List QRow → List QRow) (t : List QRow) (ha : Admin env) (hu : Unique t)
    (h : row t "" = none) :
    row (cli env order t { add := ",3,fifo" }).table "" = some (3, "fifo", "Active") ∧
    (∀ t', (cli env order t' { disable := "" }).table = t' ∧ (cli env order t' { remove := "" }).table = t' ∧
      status (cli env order t' { remove := "" }) = 0) := by
  have e : ({ add := ",3,fifo" } : Args) = Op.args (.add "" 3 "fifo") := by
    show _ = ({ add := csv "" 3 "fifo" } : Args)
    have : csv "" 3 "fifo" = ",3,fifo" := by decide +kernel
    rw [this]
  refine ⟨?_, fun t' => ?_⟩
  · rw [e]
    rw [(operation_exact env order t ha hu (.add "" 3 "fifo") ⟨by decide, by decide⟩ (by intro n p pol hh; cases hh; exact h)).2.1 ""]
    rfl
  · have l := fun t' => admin_operate env order t' { list := true } ha rfl
    have e1 : cli env order t' { disable := "" } = oarqueue env order t' { list := true } := rfl
    have e2 : cli env order t' { remove := "" } = oarqueue env order t' { list := true } := rfl
    rw [e1, l]
    exact ⟨rfl, rfl, by simp [status, operate, Cli.exitValue, Cli.exitLoop]⟩

/-- C83, refuted. The command raises without the variable `USER`, even for an administrator named by `OARDO_USER`. -/
theorem no_user_violated (env : String → Option String) (order : List QRow → List QRow) (t : List QRow) (a : Args) (hv : a.version = false)
    (h : env "USER" = none) : (cli env order t a).raised = true := by
  unfold cli oarqueue userOf
  rw [if_neg (by split <;> (rw [show _ = false from hv]; exact Bool.false_ne_true)), h]

theorem stays_absent (n : String) (ops : List Op) (hno : ∀ p pol, Op.add n p pol ∉ ops) (f : String → Option (Int × String × String))
    (h : f n = none) : ops.foldl (fun f o => o.want f) f n = none := by
  induction ops generalizing f with
  | nil => exact h
  | cons o os ih =>
    refine ih (fun p pol hm => hno p pol (List.mem_cons_of_mem _ hm)) (o.want f) ?_
    cases o with
    | add n' p pol =>
      have : n ≠ n' := fun e => hno p pol (by rw [e]; exact List.mem_cons_self)
      simp [Op.want, this, h]
    | _ => simp [Op.want, h]

/-- C83, refuted. The removal of a queue does not look at its waiting jobs: with exit status 0 the queue goes, and none of its jobs is given to the
scheduler after any further operations that do not add the queue again. -/
theorem remove_waiting_violated (env : String → Option String) (order : List QRow → List QRow) (t : List QRow) (ha : Admin env) (hu : Unique t)
    (n : String) (hn : n ≠ "") (ops : List Op) (hd : Doable (row (cli env order t (Op.remove n).args).table) ops)
    (hno : ∀ p pol, Op.add n p pol ∉ ops) (jobs : List Queues.WJob) (j : Queues.WJob) (hq : j.queue = n) (rows : List Queues.Queue)
    (hp : rows.Perm ((history env order (cli env order t (Op.remove n).args).table ops).map QRow.view)) :
    status (cli env order t (Op.remove n).args) = 0 ∧ ∀ g ∈ Queues.scheduledGroups rows, j ∉ Queues.waitingJobs g jobs := by
  obtain ⟨h1, h2, h3⟩ := operation_exact env order t ha hu (.remove n) hn nofun
  refine ⟨h3, fun g hg hj => ?_⟩
  obtain ⟨k1, k2⟩ := history_exact env order ha ops _ h1 hd
  have hmem : n ∈ (Queues.scheduledGroups rows).flatten := by
    have := ((Queues.waiting_jobs g jobs).1 j).1 hj
    exact List.mem_flatten.2 ⟨g, hg, hq ▸ this.2.2.1⟩
  rw [scheduled_iff _ k1 n rows hp, k2 n, stays_absent n ops hno _ (by rw [h2 n]; simp [Op.want])] at hmem
  obtain ⟨_, _, h⟩ := hmem
  exact absurd h nofun

example : Doable (row (cli (fun _ => some "oar") id [⟨"q", 3, "fifo", "Active"⟩, ⟨"r", 1, "fifo", "Active"⟩] (Op.remove "q").args).table)
    [.disable "r", .enableAll] ∧ ∀ p pol, Op.add "q" p pol ∉ [.disable "r", .enableAll] :=
  ⟨⟨(show "r" ≠ "" by decide), nofun, trivial, nofun, trivial⟩, by simp⟩

end Oar.OarQueue
