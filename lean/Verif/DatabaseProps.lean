import Verif.DatabaseSpec
import Verif.ConfigProps
import Verif.OarstatProps

/-!
# C115: the programs connect to the database of the configuration
-/

namespace Oar.Database

open Oar.Tools Oar.JobTypes Oar.Config Spec

/-! ## The parameters -/

def hit (k : T) (e : T × Value) : Bool := (txt "DB_").isPrefixOf e.1 && lower (e.1.drop 3) == k

theorem fold_lookup (k : T) : ∀ (l d : Conf),
    (l.foldl (fun d e => if (txt "DB_").isPrefixOf e.1 then dictSet (lower (e.1.drop 3)) e.2 d else d) d).lookup k = ((l.reverse.find? (hit k)).map (·.2)).or (d.lookup k)
  | [], d => by simp
  | e :: l, d => by
    rw [List.foldl_cons, fold_lookup k l, List.reverse_cons, List.find?_append]
    cases hl : l.reverse.find? (hit k) with
    | some x => simp
    | none =>
      simp only [Option.map_none, Option.none_or]
      by_cases hp : (txt "DB_").isPrefixOf e.1
      · rw [if_pos hp]
        by_cases hk : lower (e.1.drop 3) = k
        · have : hit k e = true := by unfold hit; rw [hp, hk]; simp
          rw [List.find?_cons, this, ← hk]
          simp [lookup_dictSet]
        · have : hit k e = false := by unfold hit; rw [hp]; simpa using hk
          rw [List.find?_cons, this]
          have hk' : ¬ k = lower (e.1.drop 3) := fun e => hk e.symm
          simp [lookup_dictSet, hk']
      · rw [if_neg hp]
        have : hit k e = false := by unfold hit; simp [hp]
        rw [List.find?_cons, this]
        simp

theorem ns_lookup (cfg : Conf) (k : T) : (namespaceDB cfg).lookup k = (cfg.reverse.find? (hit k)).map (·.2) := by
  unfold namespaceDB
  rw [fold_lookup]
  simp


theorem prefix_lower {K : T} (h : (txt "DB_").isPrefixOf K = true) : K.map Char.toLower = txt "db_" ++ lower (K.drop 3) := by
  rw [List.isPrefixOf_iff_prefix] at h
  obtain ⟨r, rfl⟩ := h
  rfl

theorem hit_lower {k : T} {e : T × Value} (h : hit k e = true) : e.1.map Char.toLower = txt "db_" ++ k := by
  unfold hit at h
  rw [Bool.and_eq_true, beq_iff_eq] at h
  rw [prefix_lower h.1, h.2]

theorem mem_of_lookup {k : T} {v : Value} : ∀ {l : Conf}, l.lookup k = some v → (k, v) ∈ l
  | [], h => by simp at h
  | (a, b) :: l, h => by
    rw [List.lookup_cons] at h
    by_cases hk : k = a
    · subst hk
      simp at h
      rw [h]
      exact List.mem_cons_self
    · have : (k == a) = false := by simpa using hk
      rw [this] at h
      exact List.mem_cons_of_mem _ (mem_of_lookup h)

theorem pair_eq : ∀ {l : Conf}, (l.map (·.1)).Nodup → ∀ {e f : T × Value}, e ∈ l → f ∈ l → e.1 = f.1 → e = f
  | [], _, e, _, he, _, _ => by simp at he
  | x :: l, hn, e, f, he, hf, h => by
    rw [List.map_cons, List.nodup_cons] at hn
    rcases List.mem_cons.1 he with rfl | he' <;> rcases List.mem_cons.1 hf with rfl | hf'
    · rfl
    · exact absurd (List.mem_map.2 ⟨f, hf', h.symm⟩) hn.1
    · exact absurd (List.mem_map.2 ⟨e, he', h⟩ : f.1 ∈ l.map (·.1)) hn.1
    · exact pair_eq hn.2 he' hf' h

theorem ns_some {cfg : Conf} (h : NoTwin cfg) {key : String} {v : Value} (hp : (txt "DB_").isPrefixOf (txt key) = true) (hv : cfg.lookup (txt key) = some v) :
    (namespaceDB cfg).lookup (lower ((txt key).drop 3)) = some v := by
  have hm : (txt key, v) ∈ cfg := mem_of_lookup hv
  have hh : hit (lower ((txt key).drop 3)) (txt key, v) = true := by unfold hit; rw [hp]; simp
  rw [ns_lookup]
  cases hf : cfg.reverse.find? (hit (lower ((txt key).drop 3))) with
  | none =>
    rw [List.find?_eq_none] at hf
    exact absurd hh (hf _ (by simpa using hm))
  | some e =>
    have he : e ∈ cfg := by simpa using List.mem_of_find?_eq_some hf
    have h1 := hit_lower (List.find?_some hf)
    have h2 := hit_lower hh
    have h3 := h.2 e he _ hm (by rw [h1, h2])
    have : e = (txt key, v) := by
      have := h.1
      exact pair_eq this he hm h3
    rw [this]
    rfl

theorem ns_none {cfg : Conf} {k : T} (h : ∀ e ∈ cfg, e.1.map Char.toLower ≠ txt "db_" ++ k) : (namespaceDB cfg).lookup k = none := by
  rw [ns_lookup]
  cases hf : cfg.reverse.find? (hit k) with
  | none => rfl
  | some e => exact absurd (hit_lower (List.find?_some hf)) (h e (by simpa using List.mem_of_find?_eq_some hf))

/-! ## Reading an address -/

theorem while_all {p : Char → Bool} : ∀ {x l : T}, (∀ c ∈ x, p c = true) → (∀ c ∈ l.head?, p c = false) → (x ++ l).takeWhile p = x ∧ (x ++ l).dropWhile p = l
  | [], [], _, _ => ⟨rfl, rfl⟩
  | [], c :: l, _, h => by
    have := h c rfl
    simp [this]
  | c :: x, l, h, h' => by
    have hc := h c List.mem_cons_self
    obtain ⟨h1, h2⟩ := while_all (fun d hd => h d (List.mem_cons_of_mem _ hd)) h'
    rw [List.cons_append, List.takeWhile_cons, List.dropWhile_cons, if_pos hc, if_pos hc, h1, h2]
    exact ⟨rfl, rfl⟩

theorem notIn_iff (l : List Char) (c : Char) : notIn l c = true ↔ c ∉ l := by unfold notIn; simp

/-- The user and the password are separated by the first colon, the password is followed by the first `@`. -/
theorem auth_password {u p r : T} (hu : ∀ c ∈ u, c ≠ ':' ∧ c ≠ '/') (hp : '@' ∉ p) : auth (u ++ ':' :: p ++ '@' :: r) = (some u, some p, r) := by
  obtain ⟨h1, h2⟩ := while_all (p := notIn [':', '/']) (x := u) (l := ':' :: (p ++ '@' :: r)) (fun c hc => by rw [notIn_iff]; simp [hu c hc]) (by intro c hc; simp at hc; subst hc; decide)
  have e : u ++ ':' :: p ++ '@' :: r = u ++ ':' :: (p ++ '@' :: r) := by simp
  unfold auth
  dsimp only
  rw [e, h1, h2]
  rw [List.head?_cons, if_pos rfl, List.tail_cons, cut_first '@' r p hp]

theorem auth_alone {u h r : T} (hu : ∀ c ∈ u, c ≠ ':' ∧ c ≠ '/') (hh : ∀ c ∈ h, c ≠ ':' ∧ c ≠ '/' ∧ c ≠ '@') (hr : '@' ∉ r) :
    auth (u ++ '@' :: h ++ ':' :: r) = (some u, none, h ++ ':' :: r) := by
  obtain ⟨h1, h2⟩ := while_all (p := notIn [':', '/']) (x := u ++ '@' :: h) (l := ':' :: r) (fun c hc => by
    rw [notIn_iff]
    rcases List.mem_append.1 hc with hc | hc
    · simp [hu c hc]
    · rcases List.mem_cons.1 hc with rfl | hc
      · decide
      · simp [hh c hc]) (by intro c hc; simp at hc; subst hc; decide)
  unfold auth
  dsimp only
  rw [h1, h2, List.head?_cons, if_pos rfl, List.tail_cons, (cut_none '@' r).2 hr]
  have : (u ++ '@' :: h).reverse = h.reverse ++ '@' :: u.reverse := by simp
  dsimp only
  rw [this, cut_first '@' _ _ (fun hm => (hh '@' (by simpa using hm)).2.2 rfl)]
  simp

theorem host_eq {h r : T} (hne : h ≠ []) (hb : h.head? ≠ some '[') (hh : ∀ c ∈ h, c ≠ ':' ∧ c ≠ '/' ∧ c ≠ '?') (hr : ∀ c ∈ r.head?, c = ':' ∨ c = '/' ∨ c = '?') :
    host (h ++ r) = (some h, r) := by
  obtain ⟨h1, h2⟩ := while_all (p := notIn ['/', ':', '?']) (x := h) (l := r) (fun c hc => by rw [notIn_iff]; simp [hh c hc]) (by
    intro c hc
    rcases hr c hc with rfl | rfl | rfl <;> decide)
  have hhd : ¬ (h ++ r).head? = some '[' := by
    cases h with
    | nil => exact absurd rfl hne
    | cons c h => simpa using hb
  unfold host
  rw [if_neg hhd]
  unfold host4
  rw [h1, h2, if_neg hne]

theorem part_eq {c : Char} {stop : List Char} {x r : T} (hx : ∀ d ∈ x, d ∉ stop) (hr : ∀ d ∈ r.head?, d ∈ stop) : part c stop (c :: (x ++ r)) = (some x, r) := by
  obtain ⟨h1, h2⟩ := while_all (p := notIn stop) (x := x) (l := r) (fun d hd => (notIn_iff _ _).2 (hx d hd)) (fun d hd => by
    have := hr d hd
    unfold notIn
    simp [this])
  unfold part
  rw [List.head?_cons, if_pos rfl, List.tail_cons, h1, h2]

theorem unquote_id : ∀ {s : T}, '%' ∉ s → unquote s = s
  | [], _ => rfl
  | [_], _ => rfl
  | [_, _], _ => rfl
  | c :: a :: b :: r, h => by
    have hc : ¬ c = '%' := fun e => h (by rw [e]; simp)
    unfold unquote
    rw [if_neg hc, unquote_id (fun hm => h (List.mem_cons_of_mem _ hm))]

theorem str_nat_digits (n : Nat) : ∀ c ∈ str (n : Int), c.isDigit = true := by
  intro c hc
  have e : str (n : Int) = digits n := by unfold str; rw [if_neg (by omega)]; rfl
  rw [e] at hc
  exact Oar.Oarstat.digits_all n c hc

theorem digit_plain {c : Char} (h : c.isDigit = true) : c ≠ '/' ∧ c ≠ '?' ∧ c ≠ '@' ∧ c ≠ ':' := by
  refine ⟨?_, ?_, ?_, ?_⟩ <;> (rintro rfl; exact absurd h (by decide))

/-- What is after the account. -/
theorem rest_of {name r h b : T} {n : Nat} {u p : Option T} (ha : auth r = (u, p, h ++ ':' :: str n ++ '/' :: b)) (hne : h ≠ []) (hb : h.head? ≠ some '[')
    (hh : ∀ c ∈ h, c ≠ ':' ∧ c ≠ '/' ∧ c ≠ '?') (hbase : '?' ∉ b) :
    rest name r = some ⟨name, u.map unquote, p.map unquote, some h, some (n : Int), some b, none⟩ := by
  have e1 : h ++ ':' :: str (n : Int) ++ '/' :: b = h ++ (':' :: (str (n : Int) ++ '/' :: b)) := by simp
  have hd := str_nat_digits n
  have e2 := part_eq (c := ':') (stop := ['/', '?']) (x := str (n : Int)) (r := '/' :: b) (fun d hdd => by simp [digit_plain (hd d hdd)]) (by simp)
  have e3 := part_eq (c := '/') (stop := ['?']) (x := b) (r := []) (fun d hdd => by rw [List.mem_singleton]; rintro rfl; exact hbase hdd) (by simp)
  rw [List.append_nil] at e3
  unfold rest
  rw [ha, e1]
  dsimp only
  rw [host_eq hne hb hh (by simp)]
  dsimp only
  rw [e2]
  dsimp only
  rw [e3]
  have e4 : part '?' [] [] = (none, []) := rfl
  rw [e4]
  dsimp only [portOf]
  rw [pyInt_str]
  rfl

theorem parse_of {name r : T} (hne : name ≠ []) (hn : ∀ c ∈ name, nameChar c = true) : parse (name ++ txt "://" ++ r) = rest name r := by
  have e : name ++ txt "://" ++ r = name ++ (':' :: '/' :: '/' :: r) := by
    show name ++ [':', '/', '/'] ++ r = _
    simp
  obtain ⟨h1, h2⟩ := while_all (p := nameChar) (x := name) (l := ':' :: '/' :: '/' :: r) hn (by intro c hc; simp at hc; subst hc; decide)
  unfold parse
  dsimp only
  rw [e, h1, h2, if_neg hne, if_pos (by rfl)]
  rfl


/-! ## From the configuration to the address -/

theorem says_ns {cfg : Conf} (h : NoTwin cfg) {key low : String} {s : T} (hs : Says cfg key s) (hp : (txt "DB_").isPrefixOf (txt key) = true)
    (hl : lower ((txt key).drop 3) = txt low) : ∃ v, (namespaceDB cfg).lookup (txt low) = some v ∧ shown v = s := by
  obtain ⟨v, hv, hc⟩ := hs
  refine ⟨v, by rw [← hl]; exact ns_some h hp hv, ?_⟩
  rcases hc with rfl | ⟨n, rfl, rfl⟩ <;> rfl

theorem field_of {c : Conf} {key : String} {s : T} (h : ∃ v, c.lookup (txt key) = some v ∧ shown v = s) (k : T → Out) : field c key k = k s := by
  obtain ⟨v, hv, rfl⟩ := h
  unfold field
  rw [hv]

/-- The text of the account in the address. -/
def account (a : Account) : T := if a.password = [] then a.login else a.login ++ ':' :: a.password

/-- The address is the one of the account. -/
theorem uri_eq {cfg : Conf} {ro : Bool} {a : Account} (h : NoTwin cfg) (hd : Describes cfg ro a) (hk : lower a.kind ≠ txt "sqlite") :
    uri cfg ro = .url (driver (lower a.kind) ++ txt "://" ++ (account a ++ '@' :: a.host ++ ':' :: str a.port ++ '/' :: a.base)) := by
  have hkind : (namespaceDB cfg).lookup (txt "type") = some (.text a.kind) := ns_some h (key := "DB_TYPE") rfl hd.kind
  have hlogin : ∃ v, (namespaceDB cfg).lookup (txt (loginKey ro)) = some v ∧ shown v = a.login := by
    cases ro
    · exact says_ns h (low := "base_login") hd.login rfl rfl
    · exact says_ns h (low := "base_login_ro") hd.login rfl rfl
  have hhost := says_ns h (low := "hostname") hd.host rfl rfl
  have hport := says_ns h (low := "port") hd.port rfl rfl
  have hbase := says_ns h (low := "base_name") hd.base rfl rfl
  have hpass : (if ((namespaceDB cfg).lookup (txt (passwdKey ro))).getD (.text []) ≠ .text [] then
      a.login ++ ':' :: shown (((namespaceDB cfg).lookup (txt (passwdKey ro))).getD (.text [])) else a.login) = account a := by
    unfold account
    rcases hd.password with hs | ⟨he, hs⟩
    · have hv : ∃ v, (namespaceDB cfg).lookup (txt (passwdKey ro)) = some v ∧ shown v = a.password ∧ (v = .text a.password ∨ ∃ n, v = .int n ∧ a.password = str n) := by
        obtain ⟨v, hv, hc⟩ := hs
        refine ⟨v, ?_, ?_, hc⟩
        · cases ro
          · exact ns_some h (key := "DB_BASE_PASSWD") rfl hv
          · exact ns_some h (key := "DB_BASE_PASSWD_RO") rfl hv
        · rcases hc with rfl | ⟨n, rfl, hn⟩
          · rfl
          · exact hn.symm
      obtain ⟨v, hv, hsv, hc⟩ := hv
      rw [hv, Option.getD_some, hsv]
      rcases hc with rfl | ⟨n, rfl, hn⟩
      · by_cases hp : a.password = []
        · rw [hp]; simp
        · rw [if_neg hp, if_pos (by simpa using hp)]
      · have hp : a.password ≠ [] := by
          rw [hn]
          intro e
          have := pyInt_str n
          rw [e] at this
          exact absurd this (by simp [pyInt, pyNat])
        rw [if_neg hp, if_pos (by simp)]
    · have hn : (namespaceDB cfg).lookup (txt (passwdKey ro)) = none := ns_none (by
        intro e hem
        have := hs e hem
        cases ro <;> exact this)
      rw [hn, if_pos he]
      simp
  unfold uri
  dsimp only
  rw [hkind]
  dsimp only
  rw [if_neg hk]
  unfold serverUri
  rw [field_of hlogin]
  dsimp only
  rw [hpass, field_of hhost, field_of hport, field_of hbase]
  simp

theorem toLower_alnum {c : Char} (h : c.isAlphanum = true) : c.toLower.isAlphanum = true := by
  unfold Char.toLower
  split
  · rename_i hu
    have h1 : c.toNat ≥ 65 := hu.1
    have h2 : c.toNat ≤ 90 := hu.2
    unfold Char.isAlphanum Char.isAlpha Char.isLower Char.isUpper Char.isDigit
    simp
    left
    right
    have e : (c.val + 32).toNat = c.toNat + 32 := by
      rw [UInt32.toNat_add]
      show (c.toNat + 32) % 2 ^ 32 = _
      omega
    constructor <;> rw [UInt32.le_iff_toNat_le, e]
    · show 97 ≤ c.toNat + 32
      omega
    · show c.toNat + 32 ≤ 122
      omega
  · exact h

theorem lower_name {k : T} (h : k ≠ [] ∧ (∀ c ∈ k, c.isAlphanum = true ∨ c = '_' ∨ c = '+')) : driver (lower k) ≠ [] ∧ ∀ c ∈ driver (lower k), nameChar c = true := by
  have hl : lower k ≠ [] ∧ ∀ c ∈ lower k, nameChar c = true := by
    refine ⟨fun e => h.1 (by simpa [lower] using e), fun c hc => ?_⟩
    obtain ⟨d, hd, rfl⟩ := List.mem_map.1 hc
    unfold nameChar
    rcases h.2 d hd with hx | rfl | rfl
    · rw [toLower_alnum hx]; rfl
    · decide
    · decide
  unfold driver
  split
  · exact ⟨by decide, by decide⟩
  · exact hl

/-- **C115.** -/
theorem connect_exact {cfg : Conf} {ro : Bool} {a : Account} (h : NoTwin cfg) (hd : Describes cfg ro a) (hw : Writable a) :
    connect cfg ro = some ⟨dialect a.kind, some a.login, if a.password = [] then none else some a.password, some a.host, some (a.port : Int), some a.base, none⟩ := by
  obtain ⟨n1, n2⟩ := lower_name ⟨hw.kind.1, hw.kind.2.1⟩
  unfold connect
  rw [uri_eq h hd hw.kind.2.2]
  dsimp only
  rw [parse_of n1 n2]
  have hdia : driver (lower a.kind) = dialect a.kind := by
    unfold driver dialect lower
    simp only [List.mem_cons, List.not_mem_nil, or_false]
    split <;> split <;> simp_all
  have hlog : unquote a.login = a.login := unquote_id (fun hm => (hw.login _ hm).2.2 rfl)
  have hh3 : ∀ c ∈ a.host, c ≠ ':' ∧ c ≠ '/' ∧ c ≠ '?' := fun c hc => ⟨(hw.host.2.2 c hc).1, (hw.host.2.2 c hc).2.1, (hw.host.2.2 c hc).2.2.1⟩
  have hq : '?' ∉ a.base := fun hm => (hw.base _ hm).1 rfl
  rw [hdia]
  by_cases hp : a.password = []
  · have ha : auth (account a ++ '@' :: a.host ++ ':' :: str a.port ++ '/' :: a.base) = (some a.login, none, a.host ++ ':' :: str a.port ++ '/' :: a.base) := by
      have := auth_alone (u := a.login) (h := a.host) (r := str a.port ++ '/' :: a.base) (fun c hc => ⟨(hw.login c hc).1, (hw.login c hc).2.1⟩)
        (fun c hc => ⟨(hh3 c hc).1, (hh3 c hc).2.1, (hw.host.2.2 c hc).2.2.2⟩) (by
          intro hm
          rcases List.mem_append.1 hm with hm | hm
          · exact (digit_plain (str_nat_digits _ _ hm)).2.2.1 rfl
          · rcases List.mem_cons.1 hm with hm | hm
            · exact absurd hm (by decide)
            · exact (hw.base _ hm).2 hp rfl)
      unfold account
      rw [if_pos hp]
      simpa using this
    rw [rest_of ha hw.host.1 hw.host.2.1 hh3 hq, if_pos hp]
    simp [hlog]
  · have ha : auth (account a ++ '@' :: a.host ++ ':' :: str a.port ++ '/' :: a.base) = (some a.login, some a.password, a.host ++ ':' :: str a.port ++ '/' :: a.base) := by
      have := auth_password (u := a.login) (p := a.password) (r := a.host ++ ':' :: str a.port ++ '/' :: a.base) (fun c hc => ⟨(hw.login c hc).1, (hw.login c hc).2.1⟩)
        (fun hm => (hw.password _ hm).1 rfl)
      unfold account
      rw [if_neg hp]
      simpa using this
    rw [rest_of ha hw.host.1 hw.host.2.1 hh3 hq, if_neg hp]
    simp [hlog, unquote_id (fun hm => (hw.password _ hm).2 rfl)]

/-- The file of SQLite is the one of the configuration. -/
theorem sqlite_exact {cfg : Conf} {ro : Bool} {k f : T} (h : NoTwin cfg) (hk : cfg.lookup (txt "DB_TYPE") = some (.text k)) (hs : k.map Char.toLower = txt "sqlite")
    (hf : Says cfg "DB_BASE_FILE" f) (hq : '?' ∉ f) : connect cfg ro = some ⟨txt "sqlite", none, none, none, none, some f, none⟩ := by
  have hkind : (namespaceDB cfg).lookup (txt "type") = some (.text k) := ns_some h (key := "DB_TYPE") rfl hk
  have hfile := says_ns h (low := "base_file") hf rfl rfl
  have hu : uri cfg ro = .url (txt "sqlite" ++ txt "://" ++ ('/' :: f)) := by
    unfold uri
    dsimp only
    rw [hkind]
    dsimp only
    rw [if_pos (show lower k = txt "sqlite" from hs), field_of hfile]
    rfl
  unfold connect
  rw [hu]
  dsimp only
  rw [parse_of (by decide) (by decide)]
  have e3 := part_eq (c := '/') (stop := ['?']) (x := f) (r := []) (fun d hdd => by rw [List.mem_singleton]; rintro rfl; exact hq hdd) (by simp)
  rw [List.append_nil] at e3
  have ea : auth ('/' :: f) = (none, none, '/' :: f) := rfl
  have eh : host ('/' :: f) = (none, '/' :: f) := rfl
  have ep : part ':' ['/', '?'] ('/' :: f) = (none, '/' :: f) := rfl
  unfold rest
  rw [ea]
  dsimp only
  rw [eh]
  dsimp only
  rw [ep]
  dsimp only
  rw [e3]
  rfl

/-! ## What does not hold -/

theorem rest_account {name r : T} {u : Url} (h : rest name r = some u) : u.user = (auth r).1.map unquote ∧ u.password = (auth r).2.1.map unquote := by
  unfold rest at h
  dsimp only at h
  obtain ⟨p, _, rfl⟩ := Option.map_eq_some_iff.1 h
  exact ⟨rfl, rfl⟩

theorem unquote_le : ∀ s : T, (unquote s).length ≤ s.length
  | [] => Nat.le_refl _
  | [_] => Nat.le_refl _
  | [_, _] => Nat.le_refl _
  | c :: a :: b :: r => by
    unfold unquote
    have h1 := unquote_le r
    have h2 := unquote_le (a :: b :: r)
    simp only [List.length_cons] at h2 ⊢
    split
    · split
      · simp only [List.length_cons]; omega
      · simp only [List.length_cons]; omega
    · simp only [List.length_cons]; omega

/-- What is read of the account is what is before the rest of the address. -/
theorem connect_account {cfg : Conf} {ro : Bool} {a : Account} (h : NoTwin cfg) (hd : Describes cfg ro a)
    (hk : a.kind ≠ [] ∧ (∀ c ∈ a.kind, c.isAlphanum = true ∨ c = '_' ∨ c = '+') ∧ a.kind.map Char.toLower ≠ txt "sqlite") {u : Url} (hu : connect cfg ro = some u) :
    u.user = (auth (account a ++ '@' :: a.host ++ ':' :: str a.port ++ '/' :: a.base)).1.map unquote ∧
    u.password = (auth (account a ++ '@' :: a.host ++ ':' :: str a.port ++ '/' :: a.base)).2.1.map unquote := by
  obtain ⟨n1, n2⟩ := lower_name ⟨hk.1, hk.2.1⟩
  unfold connect at hu
  rw [uri_eq h hd hk.2.2] at hu
  dsimp only at hu
  rw [parse_of n1 n2] at hu
  exact rest_account hu

/-- C115 (violated). A password is cut at its first `@`: whatever the rest, it is never the one sent. -/
theorem at_violated {cfg : Conf} {ro : Bool} {a : Account} (h : NoTwin cfg) (hd : Describes cfg ro a)
    (hk : a.kind ≠ [] ∧ (∀ c ∈ a.kind, c.isAlphanum = true ∨ c = '_' ∨ c = '+') ∧ a.kind.map Char.toLower ≠ txt "sqlite") (hl : ∀ c ∈ a.login, c ≠ ':' ∧ c ≠ '/')
    {x y : T} (hp : a.password = x ++ '@' :: y) (hx : '@' ∉ x) {u : Url} (hu : connect cfg ro = some u) :
    u.password = some (unquote x) ∧ u.password ≠ some a.password := by
  have e := (connect_account h hd hk hu).2
  have hne : a.password ≠ [] := by rw [hp]; simp
  have := auth_password (u := a.login) (p := x) (r := y ++ '@' :: a.host ++ ':' :: str a.port ++ '/' :: a.base) hl hx
  have e2 : account a ++ '@' :: a.host ++ ':' :: str a.port ++ '/' :: a.base = a.login ++ ':' :: x ++ '@' :: (y ++ '@' :: a.host ++ ':' :: str a.port ++ '/' :: a.base) := by
    unfold account
    rw [if_neg hne, hp]
    simp
  rw [e2, this] at e
  refine ⟨e, ?_⟩
  rw [e]
  intro hc
  have h1 : (unquote x).length = a.password.length := by
    have := Option.some.inj hc
    rw [this]
  have h2 := unquote_le x
  rw [hp, List.length_append, List.length_cons] at h1
  omega

theorem unquote_escape {c h l : Char} {y : T} (he : escape h l = some c) : ∀ {x : T}, '%' ∉ x → unquote (x ++ '%' :: h :: l :: y) = x ++ c :: unquote y
  | [], _ => by
    show unquote ('%' :: h :: l :: y) = c :: unquote y
    conv => lhs; unfold unquote
    rw [if_pos rfl, he]
  | d :: x, hx => by
    have hd : ¬ d = '%' := fun e => hx (by rw [e]; simp)
    have ih := unquote_escape (y := y) he (x := x) (fun hm => hx (List.mem_cons_of_mem _ hm))
    obtain ⟨p, q, r, hr⟩ : ∃ p q r, x ++ '%' :: h :: l :: y = p :: q :: r := by
      match x with
      | [] => exact ⟨_, _, _, rfl⟩
      | [_] => exact ⟨_, _, _, rfl⟩
      | _ :: _ :: _ => exact ⟨_, _, _, rfl⟩
    rw [List.cons_append, hr]
    conv => lhs; unfold unquote
    rw [if_neg hd, ← hr, ih]
    rfl

theorem hexVal_of {d : Char} {i : Nat} (h : HexDigit d i) : hexVal d = some i ∧ i < 16 := by
  have h1 : ∀ i : Fin 16, hexVal ("0123456789abcdef".toList[i.val]?.getD ' ') = some i.val := by decide
  have h2 : ∀ i : Fin 16, hexVal ("0123456789ABCDEF".toList[i.val]?.getD ' ') = some i.val := by decide
  rcases h with h | h
  · have hl : i < 16 := (List.getElem?_eq_some_iff.mp h).1
    have := h1 ⟨i, hl⟩
    rw [h] at this
    exact ⟨this, hl⟩
  · have hl : i < 16 := (List.getElem?_eq_some_iff.mp h).1
    have := h2 ⟨i, hl⟩
    rw [h] at this
    exact ⟨this, hl⟩

theorem escape_of {d d' : Char} {i j : Nat} (h : HexDigit d i) (h' : HexDigit d' j) (hi : i < 8) : escape d d' = some (Char.ofNat (16 * i + j)) := by
  obtain ⟨e, _⟩ := hexVal_of h
  obtain ⟨e', l⟩ := hexVal_of h'
  unfold escape
  rw [e, e']
  exact if_pos (by omega)

/-- C115 (violated). An escape `%XX` in a password is decoded: whatever the rest, the password is never the one sent. -/
theorem percent_violated {cfg : Conf} {ro : Bool} {a : Account} (h : NoTwin cfg) (hd : Describes cfg ro a)
    (hk : a.kind ≠ [] ∧ (∀ c ∈ a.kind, c.isAlphanum = true ∨ c = '_' ∨ c = '+') ∧ a.kind.map Char.toLower ≠ txt "sqlite") (hl : ∀ c ∈ a.login, c ≠ ':' ∧ c ≠ '/')
    (hat : '@' ∉ a.password) {x y : T} {d d' c : Char} (hp : a.password = x ++ '%' :: d :: d' :: y) (hx : '%' ∉ x)
    {i j : Nat} (hi : HexDigit d i) (hj : HexDigit d' j) (hlt : i < 8) (hc : c = Char.ofNat (16 * i + j))
    {u : Url} (hu : connect cfg ro = some u) : u.password = some (x ++ c :: unquote y) ∧ u.password ≠ some a.password := by
  have he : escape d d' = some c := by rw [hc]; exact escape_of hi hj hlt
  have e := (connect_account h hd hk hu).2
  have hne : a.password ≠ [] := by rw [hp]; simp
  have := auth_password (u := a.login) (p := a.password) (r := a.host ++ ':' :: str a.port ++ '/' :: a.base) hl hat
  have e2 : account a ++ '@' :: a.host ++ ':' :: str a.port ++ '/' :: a.base = a.login ++ ':' :: a.password ++ '@' :: (a.host ++ ':' :: str a.port ++ '/' :: a.base) := by
    unfold account
    rw [if_neg hne]
    simp
  rw [e2, this] at e
  have e3 : unquote a.password = x ++ c :: unquote y := by rw [hp]; exact unquote_escape he hx
  rw [Option.map_some, e3] at e
  refine ⟨e, ?_⟩
  rw [e]
  intro hc
  have h1 := congrArg List.length (Option.some.inj hc)
  have h2 := unquote_le y
  rw [hp] at h1
  simp only [List.length_append, List.length_cons] at h1
  omega

/-- C115 (violated). Without a password, a name of database with an `@` makes the machine a part of the login, and the port a part of a password. -/
theorem base_at_violated {cfg : Conf} {ro : Bool} {a : Account} (h : NoTwin cfg) (hd : Describes cfg ro a)
    (hk : a.kind ≠ [] ∧ (∀ c ∈ a.kind, c.isAlphanum = true ∨ c = '_' ∨ c = '+') ∧ a.kind.map Char.toLower ≠ txt "sqlite") (hl : ∀ c ∈ a.login, c ≠ ':' ∧ c ≠ '/')
    (hh : ∀ c ∈ a.host, c ≠ ':' ∧ c ≠ '/') (hp : a.password = []) {x y : T} (hb : a.base = x ++ '@' :: y) (hx : '@' ∉ x) {u : Url} (hu : connect cfg ro = some u) :
    u.user = some (unquote (a.login ++ '@' :: a.host)) ∧ u.password = some (unquote (str a.port ++ '/' :: x)) := by
  obtain ⟨e1, e2⟩ := connect_account h hd hk hu
  have hat : '@' ∉ str (a.port : Int) ++ '/' :: x := by
    intro hm
    rcases List.mem_append.1 hm with hm | hm
    · exact (digit_plain (str_nat_digits _ _ hm)).2.2.1 rfl
    · rcases List.mem_cons.1 hm with hm | hm
      · exact absurd hm (by decide)
      · exact hx hm
  have := auth_password (u := a.login ++ '@' :: a.host) (p := str (a.port : Int) ++ '/' :: x) (r := y) (fun c hc => by
    rcases List.mem_append.1 hc with hc | hc
    · exact hl c hc
    · rcases List.mem_cons.1 hc with rfl | hc
      · decide
      · exact hh c hc) hat
  have e3 : account a ++ '@' :: a.host ++ ':' :: str (a.port : Int) ++ '/' :: a.base = a.login ++ '@' :: a.host ++ ':' :: (str (a.port : Int) ++ '/' :: x) ++ '@' :: y := by
    unfold account
    rw [if_pos hp, hb]
    simp
  rw [e3, this] at e1 e2
  exact ⟨e1, e2⟩

/-- C115 (violated). The zeros before a password of digits are lost: the file says `0` and the digits of `n`, the password sent is the digits of `n`. -/
theorem zeros_violated {cfg : Conf} {es : List (T × T)} (he : ∀ e ∈ es, Key e.1 ∧ Val e.2) {n : Nat} (hz : es.reverse.lookup (txt "DB_BASE_PASSWD") = some ('0' :: digits n))
    {a : Account} (h : NoTwin (load cfg (written es))) (hd : Describes (load cfg (written es)) false a) (hw : Writable a) :
    ∃ u, connect (load cfg (written es)) false = some u ∧ u.password = some (digits n) := by
  have hl := load_exact_partial cfg es he (txt "DB_BASE_PASSWD")
  rw [hz, Option.map_some, Oar.Config.zeros_violated, Option.some_or] at hl
  have hdig : str (n : Int) = digits n := by unfold str; rw [if_neg (by omega)]; rfl
  have hp : a.password = digits n := by
    rcases hd.password with ⟨v, hv, hc⟩ | ⟨_, hc⟩
    · have hv' : (load cfg (written es)).lookup (txt "DB_BASE_PASSWD") = some v := hv
      rw [hl] at hv'
      cases hv'
      rcases hc with hc | ⟨m, hm, hs⟩
      · cases hc
      · cases hm
        rw [hs, hdig]
    · exact absurd (by decide : (txt "DB_BASE_PASSWD").map Char.toLower = txt "db_base_passwd") (hc _ (mem_of_lookup hl))
  have hne : a.password ≠ [] := by
    rw [hp]
    exact (digits_spec n).1
  refine ⟨_, connect_exact h hd hw, ?_⟩
  dsimp only
  rw [if_neg hne, hp]

/-- C115 (violated). A type that the file writes with digits only, or a parameter that is not there, stops every program. -/
theorem type_violated {cfg : Conf} {ro : Bool} (h : NoTwin cfg) {v : Value} (hv : cfg.lookup (txt "DB_TYPE") = some v) (ht : ∀ s, v ≠ .text s) : uri cfg ro = .raises := by
  have hkind : (namespaceDB cfg).lookup (txt "type") = some v := ns_some h (key := "DB_TYPE") rfl hv
  unfold uri
  dsimp only
  rw [hkind]
  cases v with
  | text s => exact absurd rfl (ht s)
  | int _ => rfl
  | float _ => rfl
  | null => rfl

/-- Without a type nothing is done, and the message names it. -/
theorem missing_type {cfg : Conf} {ro : Bool} (h : ∀ e ∈ cfg, e.1.map Char.toLower ≠ txt "db_type") : uri cfg ro = .missing (txt "type") := by
  unfold uri
  dsimp only
  rw [ns_none (k := txt "type") h]

/-! ## Examples -/

def file : T := txt "DB_TYPE=\"Pg\"\nDB_HOSTNAME=\"db.example.org\"\nDB_PORT=\"5432\"\nDB_BASE_NAME=\"oar\"\nDB_BASE_LOGIN=\"oar\"\nDB_BASE_PASSWD=\"s:e/cret\"\n"
def wanted : Account := ⟨txt "Pg", txt "oar", txt "s:e/cret", txt "db.example.org", 5432, txt "oar"⟩

theorem example_file : NoTwin (load [] file) ∧ Describes (load [] file) false wanted ∧ Writable wanted := by
  have hl : load [] file = [(txt "DB_TYPE", .text (txt "Pg")), (txt "DB_HOSTNAME", .text (txt "db.example.org")), (txt "DB_PORT", .int 5432), (txt "DB_BASE_NAME", .text (txt "oar")),
      (txt "DB_BASE_LOGIN", .text (txt "oar")), (txt "DB_BASE_PASSWD", .text (txt "s:e/cret"))] := by decide +kernel
  rw [hl]
  refine ⟨⟨by decide, by decide⟩, ⟨by decide, ⟨_, rfl, .inl rfl⟩, .inl ⟨_, rfl, .inl rfl⟩, ⟨_, rfl, .inl rfl⟩, ⟨_, rfl, .inr ⟨5432, rfl, by decide⟩⟩, ⟨_, rfl, .inl rfl⟩⟩, ?_⟩
  refine ⟨by decide, by decide, by decide, by decide, by decide⟩

theorem example_connect : connect (load [] file) false =
    some ⟨txt "postgresql", some (txt "oar"), some (txt "s:e/cret"), some (txt "db.example.org"), some 5432, some (txt "oar"), none⟩ := by decide +kernel

/-- Two names that differ by the case only: the last one is used, for a sensitive parameter too. -/
theorem twin_example : connect (load [] (file ++ txt "DB_Hostname=other\n")) false =
    some ⟨txt "postgresql", some (txt "oar"), some (txt "s:e/cret"), some (txt "other"), some 5432, some (txt "oar"), none⟩ := by decide +kernel

/-- A password with an `@` sends its end to the machine that it names. -/
theorem at_example : connect (load [] (file ++ txt "DB_BASE_PASSWD=\"p@evil:1/x\"\n")) false =
    some ⟨txt "postgresql", some (txt "oar"), some (txt "p"), some (txt "evil"), some 1, some (txt "x@db.example.org:5432/oar"), none⟩ := by decide +kernel

/-- A password with an escape is sent without it. -/
theorem percent_example : HexDigit '4' 4 ∧ HexDigit 'f' 15 ∧ connect (load [] (file ++ txt "DB_BASE_PASSWD=\"up%4fx\"\n")) false =
    some ⟨txt "postgresql", some (txt "oar"), some (txt "upOx"), some (txt "db.example.org"), some 5432, some (txt "oar"), none⟩ := by
  refine ⟨.inl (by decide), .inl (by decide), by decide +kernel⟩

theorem sqlite_example : connect (load [] (txt "DB_TYPE=sqlite\nDB_BASE_FILE=/var/lib/oar.db\n")) false = some ⟨txt "sqlite", none, none, none, none, some (txt "/var/lib/oar.db"), none⟩ ∧
    connect (load [] (txt "DB_TYPE=sqlite\nDB_BASE_FILE=/var/a?b.db\n")) false = some ⟨txt "sqlite", none, none, none, none, some (txt "/var/a"), some (txt "b.db")⟩ := by decide +kernel

end Oar.Database
