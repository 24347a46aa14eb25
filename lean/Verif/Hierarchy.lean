import Verif.Basic

/-!
# Model of `oar/lib/hierarchy.py`
-/

namespace Oar.Hierarchy

/-- Models `keep_no_empty_scat_bks` (oar/lib/hierarchy.py:33-55): the blocks of `ref` that have at
least one resource in `itvs`, in order. -/
def keepNoEmpty (itvs : ProcSet) (ref : List ProcSet) : List ProcSet :=
  ref.filter (fun x => decide ((x ∩ itvs).card ≠ 0))

/-- The `while` loop of `extract_n_scattered_block_itv` (oar/lib/hierarchy.py:95-103).
Returns the accumulated set and the remaining count `n`. -/
def extractLoop (itvs1 : ProcSet) : List ProcSet → Int → ProcSet → ProcSet × Int
  | [], n, acc => (acc, n)
  | x :: xs, n, acc =>
    if n > 0 then
      let y := itvs1 ∩ x
      if x = y then extractLoop itvs1 xs (n - 1) (acc ∪ y)
      else extractLoop itvs1 xs n acc
    else (acc, n)

/-- Models `extract_n_scattered_block_itv` (oar/lib/hierarchy.py:58-109). -/
def extractN (itvs1 : ProcSet) (ref : List ProcSet) (n : Int) : ProcSet :=
  let (itvs, n') := extractLoop itvs1 ref n ∅
  if n' = 0 then itvs else ∅

/-- The `for` loop of `extract_all_best_half_scattered_block_itv`
(oar/lib/hierarchy.py:147-153): accumulated blocks and their number `b`. -/
def countLoop (itvs1 : ProcSet) : List ProcSet → ProcSet → Nat → ProcSet × Nat
  | [], acc, b => (acc, b)
  | x :: xs, acc, b =>
    let y := itvs1 ∩ x
    if x = y then countLoop itvs1 xs (acc ∪ y) (b + 1) else countLoop itvs1 xs acc b

/-- The `while j < int(b / 2)` loop of HALF_BEST (oar/lib/hierarchy.py:160-171). `need` is
`int(b/2) - j`. Running past the end of `itvs_ref` would be an `IndexError`; it is unreachable
since `int(b/2) ≤ b`, and the model then simply stops. -/
def halfLoop (itvs1 : ProcSet) : List ProcSet → Nat → ProcSet → ProcSet
  | [], _, acc => acc
  | x :: xs, need, acc =>
    if need = 0 then acc
    else
      let y := itvs1 ∩ x
      if x = y then halfLoop itvs1 xs (need - 1) (acc ∪ y) else halfLoop itvs1 xs need acc

/-- Models `extract_all_best_half_scattered_block_itv` (oar/lib/hierarchy.py:112-174).
`none` is the exception raised on an empty `itvs_ref` (variable `lr` is then unbound, l.154).
Simplification: `int(b / 2)` (float division) is the integer division. -/
def extractSpecial (itvs1 : ProcSet) (ref : List ProcSet) (n : Int) : Option ProcSet :=
  if ref.isEmpty then none
  else
    let (itvs, b) := countLoop itvs1 ref ∅ 0
    if n = -1 ∧ ref.length = b then some itvs
    else if n = -2 then some itvs
    else if n = -3 then some (halfLoop itvs1 ref (b / 2) ∅)
    else some ∅

/-- The two identical `while (i < l_avail_bks) and (nb_r != rqts[h])` loops of `find_resource_n_h`
(oar/lib/hierarchy.py:252-269 and 278-292); `f` is the search inside one top block. Returns
`(itvs_acc, nb_r)`. -/
def collect (f : ProcSet → ProcSet) (n : Int) : List ProcSet → ProcSet → Int → ProcSet × Int
  | [], acc, nb => (acc, nb)
  | b :: bs, acc, nb =>
    if nb ≠ n then
      let r := f b
      if r.card ≠ 0 then collect f n bs (acc ∪ r) (nb + 1) else collect f n bs acc nb
    else (acc, nb)

/-- Models `find_resource_n_h` (oar/lib/hierarchy.py:222-296). The arguments `hy`, `h`, `h_bottom`
are represented by the list of remaining lower levels `hy[h+1:]`, and `rqts` by `rqts[h:]`.
`none` stands for the `IndexError` raised when the two lists do not have matching lengths (the only
caller, oar/kao/scheduling.py:104-112, builds them with equal lengths, so the inner `getD ∅` is
never used on `none` from there). -/
def findNH (itvs : ProcSet) : List (List ProcSet) → List Int → List ProcSet → Option ProcSet
  | [sub], [n, m], top =>
    -- h == h_bottom - 2  (l.249-273)
    let avail := keepNoEmpty itvs top
    if (avail.length : Int) < n then some ∅
    else
      let inBlock (b : ProcSet) : ProcSet :=
        extractN itvs ((sub.filter (fun x => decide ((b ∩ x).card ≠ 0))).map (fun x => b ∩ x)) m
      let (acc, nb) := collect inBlock n avail ∅ 0
      if nb = n then some acc else some ∅
  | sub :: sub' :: rest, n :: n' :: ns, top =>
    -- intermediate level (l.275-296)
    let avail := keepNoEmpty itvs top
    if (avail.length : Int) < n then some ∅
    else
      let inBlock (b : ProcSet) : ProcSet :=
        (findNH itvs (sub' :: rest) (n' :: ns) (sub.filter (fun s => decide (s ⊆ b)))).getD ∅
      let (acc, nb) := collect inBlock n avail ∅ 0
      if nb = n then some acc else some ∅
  | _, _, _ => none

/-- Models `find_resource_hierarchies_scattered` (oar/lib/hierarchy.py:177-219). `none` is a Python
exception: no level at all (`hy[0]`, l.219), an empty list of blocks with a non-positive count,
or lists of different lengths. -/
def findScattered (itvs : ProcSet) (hy : List (List ProcSet)) (rqts : List Int) : Option ProcSet :=
  match hy, rqts with
  | [level], n :: _ => if n > 0 then some (extractN itvs level n) else extractSpecial itvs level n
  | top :: subs, rqts => findNH itvs subs rqts top
  | [], _ => none

/-- One group of a request: the `(level name, count)` list and the set of resources satisfying its
properties (`constraints`), cf. oar/lib/job_handling.py:64-72 (`mld_res_rqts`). -/
structure Group where
  levels : List (String × Int)
  constraints : ProcSet
  deriving DecidableEq

/-- The hierarchy dictionary `hy` (level name → blocks), oar/lib/hierarchy.py:14-30. -/
abbrev Hy := List (String × List ProcSet)

/-- Look up the levels of a group, `hy[l_name]` (oar/kao/scheduling.py:106-109); `none` is the
`KeyError` of an unknown level. -/
def lookupLevels (hy : Hy) : List (String × Int) → Option (List (List ProcSet))
  | [] => some []
  | (l, _) :: ls =>
    match hy.lookup l, lookupLevels hy ls with
    | some b, some bs => some (b :: bs)
    | _, _ => none

/-- The search for one group (oar/kao/scheduling.py:103-112). -/
def findGroup (itvs : ProcSet) (hy : Hy) (g : Group) : Option ProcSet :=
  match lookupLevels hy g.levels with
  | none => none
  | some levels => findScattered (g.constraints ∩ itvs) levels (g.levels.map Prod.snd)

/-- The loop of `find_resource_hierarchies_job` (oar/kao/scheduling.py:101-118). -/
def findJobLoop (itvs : ProcSet) (hy : Hy) : List Group → ProcSet → Option ProcSet
  | [], result => some result
  | g :: gs, result =>
    match findGroup itvs hy g with
    | none => none
    | some res => if res.card ≠ 0 then findJobLoop itvs hy gs (result ∪ res) else some ∅

/-- Models `find_resource_hierarchies_job` (oar/kao/scheduling.py:87-118). `none` is a Python
exception. -/
def findJob (itvs : ProcSet) (rqts : List Group) (hy : Hy) : Option ProcSet :=
  findJobLoop itvs hy rqts ∅

/-- Models `find_resource_hierarchies_job` of the basic scheduler
(oar/kao/scheduling_basic.py:10-30): the union of the groups' results, an unsatisfied group
contributing nothing. -/
def findJobBasic (itvs : ProcSet) (hy : Hy) : List Group → Option ProcSet
  | [] => some ∅
  | g :: gs =>
    match findGroup itvs hy g, findJobBasic itvs hy gs with
    | some r, some rs => some (r ∪ rs)
    | _, _ => none

end Oar.Hierarchy
