import Verif.WalltimeCliProps
import Verif.ScriptProps
import Verif.ApiSubmitProps
import Verif.OarPropertyProps
import Verif.NodeSettingProps
import Verif.PriorityProps
import Verif.CliProps

/-!
# Further statements on the commands

Each of them pins a detail that the theorems of the property left free (found by the automatic changes of the model).
-/

namespace Oar.WalltimeCli

open Oar.Tools Oar.Walltime

/-- **C100.** Without a new walltime the options of a change are refused, without a job too: status 1, and nothing is recorded. -/
theorem options_refused (ev : Eval) (st : Settings) (oardo user : Option String) (known : Option Known) (now : Int) (row : Option Wtc) (args : Args) (hv : args.version = false)
    (h : args.jobId = none ∨ (args.new = none ∧ (args.force = true ∨ args.delay = true))) : oarwalltime ev st oardo user known now row args = (some 1, row) := by
  unfold oarwalltime
  rw [if_neg (by rw [hv]; exact Bool.false_ne_true)]
  by_cases h1 : args.jobId.getD 0 = 0
  · rw [if_pos h1]
  · rw [if_neg h1]
    rcases h with h | ⟨h2, h3⟩
    · exact absurd (by rw [h]; rfl) h1
    · rw [if_pos (by rw [h2]; rfl), if_pos h3.symm]

/-- **C100.** Without new walltime and options, nothing is recorded; for a job without assigned moldable the status is 0 whatever its row, when the feature is enabled, the job is not
running and the settings of its queue are readable. -/
theorem status_shown_partial (ev : Eval) (st : Settings) (oardo user : Option String) (k : Known) (now : Int) (row : Option Wtc) (id : Int) (hid : id ≠ 0)
    (he : st.enabled = some "YES") (hm : k.mold = 0) (hq : k.queue ≠ "") (hr : k.job.state ≠ "Running")
    (hs : Sane ev st k.queue (0 - (row.map (·.granted)).getD 0)) (h0 : (row.map (·.granted)).getD 0 ≤ 0) :
    oarwalltime ev st oardo user (some k) now row ⟨some id, none, false, false, false⟩ = (some 0, row) := by
  obtain ⟨qmax, ha⟩ := hs.max
  obtain ⟨qmin, hb⟩ := hs.min
  obtain ⟨v1, _, e1, _⟩ := maximum_floor (by omega) hq ha
  obtain ⟨v2, e2, _⟩ := minimum_number hq hb
  obtain ⟨v3, l3, e3, u3⟩ := list_users hq hs.force
  obtain ⟨v4, l4, e4, _⟩ := list_users hq hs.delay
  unfold oarwalltime
  dsimp only [Option.getD]
  rw [if_neg Bool.false_ne_true, if_neg hid, if_pos rfl, if_neg (by simp)]
  unfold status
  rw [if_neg (fun h => h he)]
  dsimp only
  rw [if_neg (fun h => h hm), e1, e2, e3, e4]
  dsimp only
  rw [if_neg (fun h => hr h.1), if_neg (by rw [u3]; simp)]

/-- **C100.** A forced change asked by a user that is not in the list is refused, even when the other list of users is unreadable. -/
theorem force_refused (ev : Eval) (st : Settings) (u : String) (k : Known) (now : Int) (row : Option Wtc) (id : Int) (hid : id ≠ 0) (new : List Char) (hn : new ≠ [])
    (a : Asked) (hp : parse new = some a) (he : st.enabled = some "YES") (hr : k.job.state = "Running") (hu : u = k.job.user) (vmax vmin vf vd : Atom)
    (e1 : getConf ev st.maxIncrease k.queue (some k.job.walltime) = some vmax) (e2 : getConf ev st.minForChange k.queue none = some vmin)
    (e3 : getConf ev st.forceUsers k.queue none = some vf) (e4 : getConf ev st.delayUsers k.queue none = some vd) (n1 : number vmax ≠ none) (n2 : number vmin ≠ none)
    (l : List String) (hl : users vf = some (some l)) (h : u ∉ l) (h1 : u ≠ "root") (h2 : u ≠ "oar") (delay : Bool) :
    oarwalltime ev st (some u) none (some k) now row ⟨some id, some new, true, delay, false⟩ = (some 3, row) := by
  obtain ⟨qmax, hq1⟩ := Option.ne_none_iff_exists'.1 n1
  obtain ⟨qmin, hq2⟩ := Option.ne_none_iff_exists'.1 n2
  have hperm : permitted (some l) u = false := by
    unfold permitted
    simp [h, h1, h2]
  unfold oarwalltime
  dsimp only [Option.getD, effective, Option.map]
  rw [if_neg Bool.false_ne_true, if_neg hid, if_neg hn, if_neg (by rw [hp]; simp)]
  unfold requestT
  rw [if_neg (fun h => h he)]
  dsimp only
  rw [if_neg (fun h => h.1 hu.symm), if_neg (fun h => h hr), e1, e2, e3, e4]
  dsimp only
  rw [hq1, hq2]
  dsimp only
  rw [hp]
  dsimp only
  rw [if_neg (by rw [hl]; simp), if_neg (fun hc => by
    have := hc.1 rfl
    rw [hl] at this
    rw [show ((some (some l)).getD none : Option (List String)) = some l from rfl, hperm] at this
    cases this), hl]
  dsimp only [Option.getD]
  unfold request
  rw [if_neg (fun h => h he)]
  dsimp only
  rw [if_neg (fun h => h.1 hu.symm), if_neg (fun h => h hr)]
  rw [hperm]
  simp [code]

/-- The separators of the users of a setting: a comma, a white space of ASCII. -/
def Separator (c : Char) : Prop := c ∈ [',', ' ', '\t', '\n', '\r', '\x0b', '\x0c']

instance (c : Char) : Decidable (Separator c) := inferInstanceAs (Decidable (c ∈ _))

theorem isSep_iff (c : Char) : isSep c = true ↔ Separator c := by
  unfold isSep Separator
  simp [or_assoc]

/-- The text of a list of users: the names with separators between them. -/
inductive Listed : List (List Char) → List Char → Prop
  | one (w : List Char) (h : ∀ c ∈ w, ¬ Separator c) : Listed [w] w
  | more (w s t : List Char) (ws : List (List Char)) (h : ∀ c ∈ w, ¬ Separator c) (hs : s ≠ [] ∧ ∀ c ∈ s, Separator c) (ht : Listed ws t) (h0 : ∀ c, t.head? = some c → ¬ Separator c) :
      Listed (w :: ws) (w ++ s ++ t)

theorem splitUsers_word : ∀ (w : List Char), (∀ c ∈ w, ¬ Separator c) → ∀ (b : Bool) (t : List Char), w ≠ [] → (splitUsers b (w ++ t)) =
    match splitUsers false t with
    | [] => [w]
    | x :: xs => (w ++ x) :: xs
  | [], _, _, _, h => absurd rfl h
  | c :: w, hw, b, t, _ => by
    rw [List.cons_append]
    conv => lhs; unfold splitUsers
    rw [if_neg (fun h => hw c List.mem_cons_self ((isSep_iff c).1 h))]
    by_cases hn : w = []
    · subst hn; rw [List.nil_append]
      cases splitUsers false t <;> rfl
    · rw [splitUsers_word w (fun d hd => hw d (List.mem_cons_of_mem _ hd)) false t hn]
      cases splitUsers false t <;> rfl

theorem splitUsers_seps : ∀ (s : List Char), (∀ c ∈ s, Separator c) → ∀ (t : List Char), splitUsers true (s ++ t) = splitUsers true t
  | [], _, _ => rfl
  | c :: s, hs, t => by
    rw [List.cons_append]
    conv => lhs; unfold splitUsers
    rw [if_pos ((isSep_iff c).2 (hs c List.mem_cons_self)), if_pos rfl]
    exact splitUsers_seps s (fun d hd => hs d (List.mem_cons_of_mem _ hd)) t

theorem splitUsers_start (t : List Char) (h : ∀ c, t.head? = some c → ¬ Separator c) : splitUsers true t = splitUsers false t := by
  cases t with
  | nil => rfl
  | cons c t =>
    unfold splitUsers
    rw [if_neg (fun hc => h c rfl ((isSep_iff c).1 hc)), if_neg (fun hc => h c rfl ((isSep_iff c).1 hc))]

/-- **C100.** The users allowed by a setting are exactly the names written, whatever separates them. -/
theorem users_exact (ws : List (List Char)) (t : List Char) (h : Listed ws t) (hs : t ≠ ['*']) : users (.str t) = some (some (ws.map String.ofList)) := by
  have key : splitUsers false t = ws := by
    clear hs
    induction h with
    | one w h =>
      by_cases hw : w = []
      · subst hw; rfl
      · have := splitUsers_word w h false [] hw
        rw [List.append_nil] at this
        rw [this]
        simp [splitUsers]
    | more w s t ws h hs ht h0 ih =>
      obtain ⟨hn, hall⟩ := hs
      obtain ⟨c, s, rfl⟩ := List.exists_cons_of_ne_nil hn
      have e : splitUsers false (c :: s ++ t) = [] :: ws := by
        rw [List.cons_append]
        conv => lhs; unfold splitUsers
        rw [if_pos ((isSep_iff c).2 (hall c List.mem_cons_self)), if_neg Bool.false_ne_true, splitUsers_seps s (fun d hd => hall d (List.mem_cons_of_mem _ hd)),
          splitUsers_start t h0, ih]
      rw [List.append_assoc]
      by_cases hw : w = []
      · subst hw; exact e
      · rw [splitUsers_word w h false _ hw, e]
        simp
  unfold users
  dsimp only
  rw [if_neg hs, key]

/-- Three names, with a comma and a space, then a tabulation. -/
theorem users_example : Listed [txt "root", txt "bob", txt "ann"] (txt "root, bob\tann") ∧ users (.str (txt "root, bob\tann")) = some (some ["root", "bob", "ann"]) := by
  have h : Listed [txt "root", txt "bob", txt "ann"] (txt "root, bob\tann") :=
    .more (txt "root") (txt ", ") (txt "bob\tann") _ (by decide) (by decide)
      (.more (txt "bob") (txt "\t") (txt "ann") _ (by decide) (by decide) (.one (txt "ann") (by decide)) (by intro c h; cases h; decide)) (by intro c h; cases h; decide)
  refine ⟨h, ?_⟩
  rw [users_exact _ _ h (by decide)]
  rfl

end Oar.WalltimeCli

namespace Oar.Script

open Oar.Tools

/-- **C85.** Neither an interactive job nor a job without command can be an array: no job is created (codes 9 and 8). -/
theorem array_refused (files : List Char → Option (List Char)) (user cwd line : List Char) (a : Args) (p : Params) (hb : build files (kwargs user cwd line a) = .ok p)
    (h : a.interactive = true ∨ a.command.getD [] = []) :
    oarsub files user cwd line a = (if a.arrayFile.getD [] ≠ [] then .refused 9 else if p.arrayNb = 1 then .ok p else .refused 8) := by
  have hc : (a.interactive || (ofText a.command).falsy) = true := by
    rcases h with h | h
    · rw [h]; rfl
    · cases hcc : a.command with
      | none => simp [ofText, Val.falsy]
      | some c => rw [hcc] at h; simp at h; subst h; simp [ofText, Val.falsy]
  have hf : (!(ofText a.arrayFile).falsy) = true ↔ a.arrayFile.getD [] ≠ [] := by
    cases a.arrayFile with
    | none => simp [ofText, Val.falsy]
    | some c => simp [ofText, Val.falsy]
  unfold oarsub
  rw [hb]
  dsimp only
  rw [if_pos hc]
  by_cases h1 : a.arrayFile.getD [] ≠ []
  · rw [if_pos h1, if_pos (hf.2 h1)]
  · rw [if_neg h1, if_neg (fun h => h1 (hf.1 h))]
    by_cases h2 : p.arrayNb = 1
    · rw [if_pos h2, if_neg (fun h => h h2)]
    · rw [if_neg h2, if_pos h2]

end Oar.Script

namespace Oar.ApiSubmit

open Oar.Tools Oar.Script

/-- **C88.** The request recorded for a job of the API is its command. -/
theorem request_recorded (w : World) (user : List Char) (r : Request) : (params w user r).request = ((params w user r).attr "command").str := rfl

end Oar.ApiSubmit

namespace Oar.OarProperty

/-- **C84.** A property is not renamed when it does not exist, or to the name of an existing one: the tables are unchanged, the status is 0 and the following renamings are not done. -/
theorem rename_refused (db : DB) (x : String × String) (l : List String) (h1 : Good x.1 ∧ ',' ∉ x.1.toList) (h2 : Good x.2 ∧ ',' ∉ x.2.toList)
    (h : x.1 ∉ db.tab.names ∨ x.2 ∈ db.tab.names) :
    (oarproperty db { rename := pair x :: l }).db = db ∧ (oarproperty db { rename := pair x :: l }).raised = false ∧
    (oarproperty db { rename := pair x :: l }).ret = ⟨[0], 0⟩ := by
  have er : renOne db.tab.names { db := db } (pair x) = { db := db, exits := [0], stop := .ret } := by
    unfold renOne
    rw [if_neg (fun hc => hc rfl), split_pair x h1.2 h2.2]
    dsimp only
    rw [String.ofList_toList, String.ofList_toList, if_neg (by rw [good_refused h1.1, good_refused h2.1]; exact Bool.false_ne_true)]
    by_cases hn : x.1 ∉ db.tab.names
    · rw [if_pos hn]; rfl
    · rw [if_neg hn, if_pos (h.resolve_left hn)]; rfl
  have eb : blocks db { rename := pair x :: l } = { db := db, exits := [0], stop := .ret } := by
    show (pair x :: l).foldl (renOne db.tab.names) { db := db } = _
    rw [List.foldl_cons, er, ren_stopped db.tab.names l _ (show Stop.ret ≠ Stop.go by decide)]
  rw [out_of eb (show Stop.ret ≠ Stop.raised by decide)]
  exact ⟨rfl, rfl, rfl⟩

end Oar.OarProperty

namespace Oar.NodeSetting

open Oar.Res Oar.Tools

/-- **C82.** A property that is not a column, or a text that is not a number for a column of numbers, stops the command with an exception: the resources are unchanged and the server is
not told. -/
theorem property_raises (e : World) (w : Res.RDB) (ids : List Nat) (s n v : String) (l : List String) (hs : parseProp s = some (n, v)) (hn : n ∉ systemProps)
    (h : n ∉ e.cols ∨ (n ∈ ["id", "available_upto", "last_available_upto"] ∧ pyInt v.toList = none)) :
    setProperties e (byIds ids) { w := w } (s :: l) = { w := w, exits := [0], raised := true } := by
  have h0 : setProperty e w (byIds ids) n v = none := by
    unfold setProperty
    by_cases h1 : n ∉ e.cols
    · rw [if_pos h1]
    · rw [if_neg h1]
      obtain ⟨h2, h3⟩ := h.resolve_left h1
      have : norm n v = none := by
        unfold norm
        rw [if_pos (show n ∈ intCols from h2), h3]; rfl
      rw [this]
  have hst : propStep e (byIds ids) { w := w } s = { w := w, exits := [0], raised := true } := by
    unfold propStep
    rw [if_neg (by simp), hs]; dsimp only; rw [if_neg hn, h0]; rfl
  have hr : ∀ l : List String, l.foldl (propStep e (byIds ids)) { w := w, exits := [0], raised := true } = { w := w, exits := [0], raised := true } := by
    intro l
    induction l with
    | nil => rfl
    | cons x l ih =>
      rw [List.foldl_cons]
      have : propStep e (byIds ids) { w := w, exits := [0], raised := true } x = { w := w, exits := [0], raised := true } := by
        unfold propStep; rw [if_pos rfl]
      rw [this, ih]
  unfold setProperties
  rw [List.foldl_cons, hst, hr]

end Oar.NodeSetting

namespace Oar.Priority

/-- **C79.** The command of an administrator on existing jobs changes each of them in turn, ends, and its only exit value is 2 when the server could not be told. -/
theorem toggled_exact (e : Env) (s : Sys) (user : String) (hu : user = "oar" ∨ user = "root") (up : Bool) (ids : List Nat) (h : ∀ k ∈ ids, s.jobs k ≠ none) :
    oardelBesteffort e s user up ids = (ids.foldl (toggle e) s, if up = true then [] else [2], true) := by
  have key : ∀ (l : List Nat) (s : Sys), (∀ k ∈ l, s.jobs k ≠ none) → toggleLoop e s l = (l.foldl (toggle e) s, true) := by
    intro l
    induction l with
    | nil => intro s _; rfl
    | cons k l ih =>
      intro s hs
      unfold toggleLoop
      rw [if_neg (hs k List.mem_cons_self), ih _ (fun y hy hn => hs y (List.mem_cons_of_mem _ hy) ((toggle_exists e s k y).1 hn))]
      rfl
  unfold oardelBesteffort
  rw [if_neg (by rcases hu with rfl | rfl <;> simp), key ids s h]
  cases up <;> rfl

end Oar.Priority

namespace Oar.Cli

open Oar.Jobs

/-- **C78.** `oardel --checkpoint` and `oardel --signal` without a job, or with a selection that is empty, do nothing and end: the status is 1 without selection, 0 for an empty one. -/
theorem signal_nothing (db : DB) (n : Nodes) (checkpoint : Bool) (user : String) (s : Sel)
    (h : (s.ids = [] ∧ s.sql = none ∧ s.array = none) ∨ s.array = some [] ∨ s.sql = some []) :
    (oardelSignal db n checkpoint user s).db = db ∧ (oardelSignal db n checkpoint user s).raised = false ∧
    ((exitValue (oardelSignal db n checkpoint user s).ret).1 = if s.ids = [] ∧ s.sql = none ∧ s.array = none then 1 else 0) := by
  unfold oardelSignal select
  by_cases h1 : s.ids = [] ∧ s.sql = none ∧ s.array = none
  · rw [if_pos h1, if_pos h1]; exact ⟨rfl, rfl, rfl⟩
  · rw [if_neg h1, if_neg h1]
    rcases h.resolve_left h1 with h | h
    · rw [h]; exact ⟨rfl, rfl, rfl⟩
    · cases ha : s.array with
      | none => rw [h]; exact ⟨rfl, rfl, rfl⟩
      | some l =>
        cases l with
        | nil => exact ⟨rfl, rfl, rfl⟩
        | cons x l => rw [h]; exact ⟨rfl, rfl, rfl⟩

end Oar.Cli
