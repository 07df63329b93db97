import Verif.Resources.Model
import Verif.Util.Lists
/-
Model of `libensemble/resources/scheduler.py` (class `ResourceScheduler`).

Conventions
* A dictionary "group → resource set ids" is an association list in insertion order.
* The iteration order of a Python set is unspecified: it is the parameter `ord`, any function returning a
  permutation of its argument.
* Exceptions are values of `SErr`; the last three constructors are the internal failures the code could
  in principle run into (IndexError, ZeroDivisionError, TypeError/ValueError of `set.intersection()`/`max()` of
  nothing).  C25 shows that they never occur.
* Request sizes and `user_params` are natural numbers.
* Log messages are not modelled.
-/
namespace Verif.Sched
open Verif.Res

inductive SErr where
  | insufficientResources   -- InsufficientResourcesError
  | insufficientFree        -- InsufficientFreeResources
  | indexError
  | zeroDivision
  | noGroups
deriving DecidableEq, Repr

deriving instance DecidableEq for Except

abbrev ByGroup := List (Nat × List Nat)

/-- State of a `ResourceScheduler` object (scheduler.py:62-74). -/
structure Sched where
  rsetsFree : Int
  gpuFree : Int
  nongpuFree : Int
  avail : Option ByGroup
  split2fit : Bool
  matchSlots : Bool
deriving Repr

/-- `ResourceScheduler.__init__` (scheduler.py:35-74). -/
def mkSched (rm : RM) (split2fit matchSlots : Bool) : Sched :=
  ⟨rm.rsetsFree, rm.gpuFree, rm.nongpuFree, none, split2fit, matchSlots⟩

def grpOf (rm : RM) (i : Nat) : Nat := ((rm.rsets[i]?).map (·.group)).getD 0
def slotOf (rm : RM) (i : Nat) : Nat := ((rm.rsets[i]?).map (·.slot)).getD 0
def isFree (rm : RM) (i : Nat) : Bool := decide (rm.assigned[i]? = some none)

/-- `np.unique(rsets["group"])` (scheduler.py:243): sorted distinct groups. -/
def groupsOf (rm : RM) : List Nat := sortNat (rm.rsets.map (·.group)).eraseDups

/-- The computation of `get_avail_rsets_by_group` (scheduler.py:241-251). -/
def freshAvail (rm : RM) : ByGroup :=
  (groupsOf rm).map fun g =>
    (g, (List.range rm.rsets.length).filter fun i => isFree rm i && decide (grpOf rm i = g))

/-- `get_avail_rsets_by_group` with its cache (scheduler.py:231-251). -/
def getAvail (rm : RM) (s : Sched) : ByGroup := s.avail.getD (freshAvail rm)

/-- Does resource set `i` have the requested type? `none`: any (scheduler.py:256-264). -/
def typeOk (rm : RM) (useGpus : Option Bool) (i : Nat) : Bool :=
  match useGpus with
  | none => true
  | some true => rm.isGpu i
  | some false => !rm.isGpu i

/-- `filter_for_rset_type` (scheduler.py:253-274). -/
def filterType (rm : RM) (useGpus : Option Bool) (d : ByGroup) : ByGroup :=
  d.map fun p => (p.1, p.2.filter (typeOk rm useGpus))

/-- `filter_out_rset_team` (scheduler.py:276-284). -/
def filterOut (d : ByGroup) (team : List Nat) : ByGroup :=
  d.map fun p => (p.1, p.2.filter fun i => decide (i ∉ team))

/-- `get_sorted_lens` (scheduler.py:374-377). -/
def sortedLens (d : ByGroup) : List Nat := isort (fun a b => decide (b ≤ a)) (d.map (·.2.length))

/-- `get_avail_slots_by_group` (scheduler.py:291-296): sets of slots, as lists without duplicates. -/
def slotsByGroup (rm : RM) (d : ByGroup) : ByGroup := d.map fun p => (p.1, (p.2.map (slotOf rm)).eraseDups)

/-- `max_grpsize` (scheduler.py:97-102). -/
def maxGrpsize (rm : RM) : Option Bool → Nat
  | none => rm.rsetsPerNode
  | some true => rm.gpuPerNode
  | some false => rm.nongpuPerNode

/-- `check_total_rsets` (scheduler.py:411-436). -/
def checkTotal (rm : RM) (s : Sched) (req : Nat) : Option Bool → Option SErr
  | none => if req > rm.total then some .insufficientResources
            else if (req : Int) > s.rsetsFree then some .insufficientFree else none
  | some true => if req > rm.totalGpu then some .insufficientResources
            else if (req : Int) > s.gpuFree then some .insufficientFree else none
  | some false => if req > rm.totalNongpu then some .insufficientResources
            else if (req : Int) > s.nongpuFree then some .insufficientFree else none

/-- Division rounded up (`a // b + (a % b > 0)`). -/
def ceilDiv (a b : Nat) : Nat := a / b + (if a % b > 0 then 1 else 0)

/-- `calc_rsets_even_grps` with `extend=True` (scheduler.py:304-339): (sets, groups, sets per group). -/
def evenGrps (req maxGrp maxGroups : Nat) : Except SErr (Nat × Nat × Nat) :=
  if req = 0 then .ok (0, 0, 0)
  else if maxGrp = 0 then .error .zeroDivision
  else
    let n := ceilDiv req maxGrp
    if n > 1 then
      match (List.range' n (maxGroups + 1 - n)).find? (fun t => decide (req % t = 0)) with
      | some t => .ok (req, t, req / t)
      | none => .ok (n * ceilDiv req n, n, ceilDiv req n)
    else .ok (req, n, req)

/-- `check_params` (scheduler.py:341-346). -/
def checkParams (params : List Nat) (ngroups : Nat) : Bool := params.all fun p => decide (p % ngroups = 0)

theorem mem_le_sum : ∀ {l : List Nat} {a : Nat}, a ∈ l → a ≤ l.sum
  | x :: xs, a, h => by
    rw [List.sum_cons]
    rcases List.mem_cons.mp h with e | h
    · omega
    · have := mem_le_sum h; omega

/-- `calc_even_split_uneven_groups` (scheduler.py:348-358): (groups, sets per group). -/
def unevenSplit (lens : List Nat) (maxGrps : Nat) (params : List Nat) (req : Nat) (rpg ngroups : Nat) :
    Except SErr (Nat × Nat) :=
  if ngroups = 0 ∧ rpg * ngroups = req ∧ params ≠ [] then .error .zeroDivision
  else if rpg * ngroups = req ∧ checkParams params ngroups = true then .ok (ngroups, rpg)
  else if rpg * ngroups > req then unevenSplit lens maxGrps params req (rpg - 1) ngroups
  else if ngroups + 1 > maxGrps then .error .insufficientFree
  else match h5 : lens[ngroups]? with
    | none => .error .indexError
    | some l => unevenSplit lens maxGrps params req l (ngroups + 1)
termination_by (maxGrps + 1 - ngroups) * (lens.sum + 1) + rpg
decreasing_by
  · rename_i h1 h2 h3
    have : rpg ≠ 0 := by intro e; subst e; simp at h3
    omega
  · rename_i h5
    have hl : l ≤ lens.sum := mem_le_sum (List.mem_of_getElem? h5)
    have : maxGrps + 1 - ngroups = (maxGrps + 1 - (ngroups + 1)) + 1 := by omega
    rw [this, Nat.succ_mul]
    omega

/-- `itertools.combinations(l, n)`: combinations in lexicographic order of positions. -/
def combs {α} : Nat → List α → List (List α)
  | 0, _ => [[]]
  | _ + 1, [] => []
  | n + 1, x :: xs => (combs n xs).map (x :: ·) ++ combs (n + 1) xs

/-- `set.intersection(*tmplist)` for a non-empty list of sets. -/
def interAll : List (List Nat) → List Nat
  | [] => []
  | s :: ss => s.filter fun x => ss.all fun t => decide (x ∈ t)

/-- The loop over the combinations in `get_matching_slots` (scheduler.py:394-407). -/
def matchLoop (rpg : Nat) : List (List (Nat × List Nat)) → Nat → Option (List Nat × List Nat) →
    Option (List Nat × List Nat)
  | [], _, cand => cand
  | c :: cs, ub, cand =>
    let common := interAll (c.map (·.2))
    if common.length = rpg then some (c.map (·.1), common)
    else if rpg < common.length ∧ common.length < ub then
      matchLoop rpg cs common.length (some (c.map (·.1), common))
    else matchLoop rpg cs ub cand

/-- `get_slots_of_len` (scheduler.py:286-289). -/
def slotsOfLen (d : ByGroup) (n : Nat) : ByGroup := d.filter fun p => decide (n ≤ p.2.length)

/-- `get_matching_slots` (scheduler.py:379-409). -/
def matchingSlots (slots : ByGroup) (ngroups rpg : Nat) : Except SErr (Option (List Nat × List Nat)) :=
  let viable := slotsOfLen slots rpg
  if viable.length < ngroups then .ok none
  else if ngroups = 0 ∨ viable = [] then .error .noGroups
  else .ok (matchLoop rpg (combs ngroups viable) ((viable.map (·.2.length)).foldl max 0 + 1) none)

/-- First resource set with the given group and slot (`np.nonzero(group & slot)[0][0]`, scheduler.py:368-370). -/
def findRset (rm : RM) (g s : Nat) : Option Nat :=
  (List.range rm.rsets.length).find? fun i => decide (grpOf rm i = g) && decide (slotOf rm i = s)

/-- `assign_team_from_slots` (scheduler.py:360-372). -/
def teamFromSlots (rm : RM) (ord : List Nat → List Nat) (groups slots : List Nat) (rpg : Nat) :
    Except SErr (List Nat) :=
  let picks := groups.flatMap fun g => ((ord slots).take rpg).map fun s => findRset rm g s
  if picks.all Option.isSome then .ok (sortNat (picks.filterMap id)) else .error .indexError

/-- `find_candidate` (scheduler.py:211-229). -/
def findCandidate (used : List Nat) (rpg : Nat) : ByGroup → Nat → Option (List Nat × Nat) → Option (List Nat × Nat)
  | [], _, cand => cand
  | (g, l) :: rest, ub, cand =>
    if g ∈ used then findCandidate used rpg rest ub cand
    else if l.length = rpg then some (l, g)
    else if rpg < l.length ∧ l.length < ub then findCandidate used rpg rest l.length (some (l.take rpg, g))
    else findCandidate used rpg rest ub cand

/-- The loop of `find_rsets_any_slots` (scheduler.py:192-203).  Removing the chosen sets from the chosen group does
not influence later rounds, which skip the group; the removal is still performed here. -/
def anySlotsLoop (rpg ub : Nat) : Nat → ByGroup → List Nat → List Nat → List Nat
  | 0, _, _, acc => acc
  | n + 1, d, used, acc =>
    match findCandidate used rpg d ub none with
    | none => anySlotsLoop rpg ub n d used acc
    | some (team, g) =>
      anySlotsLoop rpg ub n (d.map fun p => if p.1 = g then (p.1, p.2.filter fun i => decide (i ∉ team)) else p)
        (used ++ [g]) (acc ++ team)

/-- `find_rsets_any_slots` (scheduler.py:183-209). -/
def anySlots (d : ByGroup) (maxGrp req ngroups rpg : Nat) : Except SErr (List Nat) :=
  let acc := anySlotsLoop rpg (maxGrp + 1) ngroups d [] []
  if acc.length = req then .ok (sortNat acc) else .error .insufficientFree

theorem unevenSplit_ok (lens : List Nat) (maxGrps : Nat) (params : List Nat) (req : Nat) :
    ∀ rpg ngroups ng r, unevenSplit lens maxGrps params req rpg ngroups = .ok (ng, r) →
      ngroups ≤ ng ∧ r * ng = req ∧ checkParams params ng = true := by
  intro rpg ngroups
  induction rpg, ngroups using unevenSplit.induct lens maxGrps params req with
  | case1 rpg n h => intro ng r he; unfold unevenSplit at he; rw [if_pos h] at he; cases he
  | case2 rpg n h1 h2 =>
    intro ng r he; unfold unevenSplit at he; rw [if_neg h1, if_pos h2] at he
    injection he with he; injection he with e1 e2; subst e1; subst e2
    exact ⟨Nat.le_refl _, h2.1, h2.2⟩
  | case3 rpg n h1 h2 h3 ih =>
    intro ng r he; unfold unevenSplit at he; rw [if_neg h1, if_neg h2, if_pos h3] at he
    exact ih ng r he
  | case4 rpg n h1 h2 h3 h4 =>
    intro ng r he; unfold unevenSplit at he; rw [if_neg h1, if_neg h2, if_neg h3, if_pos h4] at he; cases he
  | case5 rpg n h1 h2 h3 h4 h5 =>
    intro ng r he; unfold unevenSplit at he
    rw [if_neg h1, if_neg h2, if_neg h3, if_neg h4] at he
    split at he
    · cases he
    · rename_i l hl; rw [h5] at hl; cases hl
  | case6 rpg n h1 h2 h3 h4 l h5 ih =>
    intro ng r he; unfold unevenSplit at he
    rw [if_neg h1, if_neg h2, if_neg h3, if_neg h4] at he
    split at he
    · cases he
    · rename_i l' hl
      rw [h5] at hl; injection hl with hl; subst hl
      obtain ⟨a, b⟩ := ih ng r he
      exact ⟨by omega, b⟩

/-- The loop `while not found_split` of `assign_resources` (scheduler.py:135-151) with slot matching.
Returns (groups, sets per group, chosen groups and slots).  The first argument after the options is the evidence
that the request is not empty, needed for termination: with an empty request the loop would not end, but
`assign_resources` returns early then. -/
def splitLoop (slots : ByGroup) (lens : List Nat) (maxGrps : Nat) (params : List Nat) (req : Nat) (hreq : 0 < req)
    (evenSize ngroups : Nat) : Except SErr (Nat × Nat × (List Nat × List Nat)) :=
  match hsp : unevenSplit lens maxGrps params req evenSize ngroups with
  | .error e => .error e
  | .ok (ng, rpg) =>
    match matchingSlots slots ng rpg with
    | .error e => .error e
    | .ok (some cand) => .ok (ng, rpg, cand)
    | .ok none => splitLoop slots lens maxGrps params req hreq evenSize (ng + 1)
termination_by req + 1 - ngroups
decreasing_by
  obtain ⟨h1, h2, _⟩ := unevenSplit_ok _ _ _ _ _ _ _ _ hsp
  have h3 : 0 < rpg := by
    apply Nat.pos_of_ne_zero; intro e; subst e; simp at h2; omega
  have h4 : ng ≤ req := by
    rw [← h2]; exact Nat.le_mul_of_pos_left ng h3
  omega

/-- `assign_resources` after the check of the totals (scheduler.py:104-167): the team, or the error.
`d` is the dictionary of available sets. -/
def chooseTeam (rm : RM) (ord : List Nat → List Nat) (split2fit matchSlots : Bool) (d : ByGroup) (req : Nat)
    (useGpus : Option Bool) (params : List Nat) : Except SErr (List Nat) :=
  let valid := filterType rm useGpus d
  match evenGrps req (maxGrpsize rm useGpus) rm.numGroups with
  | .error e => .error e
  | .ok (req', ng, rpg) =>
    let lens := sortedLens valid
    match (if ng = 0 then lens.getLast? else lens[ng - 1]?) with    -- `sorted_lengths[num_groups_req - 1]`
    | none => .error .indexError
    | some evenSize =>
      if evenSize < rpg ∧ (split2fit = false ∨ evenSize = 0) then .error .insufficientFree
      else if matchSlots then
        let slots := slotsByGroup rm valid
        match matchingSlots slots ng rpg with
        | .error e => .error e
        | .ok (some (gs, ss)) => teamFromSlots rm ord gs ss rpg
        | .ok none =>
          if split2fit = false then .error .insufficientFree
          else if evenSize < rpg then
            if hreq : 0 < req' then
              match splitLoop slots lens rm.numGroups params req' hreq evenSize ng with
              | .error e => .error e
              | .ok (_, rpg', gs, ss) => teamFromSlots rm ord gs ss rpg'
            else .error .noGroups
          else .error .insufficientFree
      else if split2fit = true ∧ evenSize < rpg then
        match unevenSplit lens rm.numGroups params req' evenSize ng with
        | .error e => .error e
        | .ok (ng', rpg') => anySlots valid (maxGrpsize rm useGpus) req' ng' rpg'
      else anySlots valid (maxGrpsize rm useGpus) req' ng rpg

/-- `assign_resources` (scheduler.py:76-181).  On an exception the only change is the cache of available sets (the
check of the totals comes before it is filled). -/
def assign (rm : RM) (ord : List Nat → List Nat) (s : Sched) (req : Nat) (useGpus : Option Bool) (params : List Nat) :
    Sched × Except SErr (List Nat) :=
  if req = 0 then (s, .ok [])
  else match checkTotal rm s req useGpus with
    | some e => (s, .error e)
    | none =>
      let d := getAvail rm s
      let s1 := { s with avail := some d }
      match chooseTeam rm ord s.split2fit s.matchSlots d req useGpus params with
      | .error e => (s1, .error e)
      | .ok team =>
        ({ s1 with
            avail := some (filterOut d team)
            rsetsFree := s.rsetsFree - team.length
            gpuFree := if useGpus = some true then s.gpuFree - team.length else s.gpuFree
            nongpuFree := if useGpus = some false then s.nongpuFree - team.length else s.nongpuFree }, .ok team)

/-- A request: sets, type, parameters that must divide by the number of groups. -/
structure Req where
  n : Nat
  useGpus : Option Bool
  params : List Nat
deriving DecidableEq, Repr

/-- A sequence of requests to one scheduler object, with the answers. -/
def session (rm : RM) (ord : List Nat → List Nat) (s : Sched) : List Req → Sched × List (Except SErr (List Nat))
  | [] => (s, [])
  | r :: rs =>
    let (s1, a) := assign rm ord s r.n r.useGpus r.params
    let (s2, as) := session rm ord s1 rs
    (s2, a :: as)

end Verif.Sched
