import Verif.Scheduler.Reach
/-!
Properties C22-C26: the answers of the resource scheduler.

A call of the allocation function creates one scheduler object and makes a sequence of requests (`session`).
`ord` is the iteration order of Python sets: any function returning a permutation of its argument.  `gpg` is
`gpus_per_group`; 0 would mean groups without GPUs and is excluded.
-/
namespace Verif.Sched
open Verif.Res

/-- The teams granted by the first `k` answers. -/
def promisedBefore (as : List (Except SErr (List Nat))) (k : Nat) (i : Nat) : Prop :=
  ∃ j team, j < k ∧ as[j]? = some (.ok team) ∧ i ∈ team

/-- Specification of a proper team for request `r`, directly in terms of the table of sets. -/
structure TeamOk (rm : RM) (matchSlots : Bool) (r : Req) (promised : Nat → Prop) (team : List Nat) : Prop where
  sets : ∀ i ∈ team, ∃ x, rm.rsets[i]? = some x ∧ (∀ b, r.useGpus = some b → x.gpu = b)
  free : ∀ i ∈ team, rm.assigned[i]? = some none
  new : ∀ i ∈ team, ¬ promised i
  sorted : team.Pairwise (· < ·)
  enough : r.n ≤ team.length
  even : ∃ m, ∀ (i : Nat) (x : RS), i ∈ team → rm.rsets[i]? = some x →
    team.countP (fun j => decide ((rm.rsets[j]?).map (·.group) = some x.group)) = m
  slots : matchSlots = true → ∀ (i j : Nat) (x y : RS), i ∈ team → j ∈ team → rm.rsets[i]? = some x → rm.rsets[j]? = some y →
    ∃ k z, k ∈ team ∧ rm.rsets[k]? = some z ∧ z.group = y.group ∧ z.slot = x.slot

theorem mem_grantedAll_take {as : List (Except SErr (List Nat))} {k i : Nat} :
    i ∈ grantedAll (as.take k) ↔ promisedBefore as k i := by
  unfold grantedAll promisedBefore
  rw [List.mem_flatMap]
  constructor
  · rintro ⟨a, ha, hi⟩
    obtain ⟨j, hj⟩ := List.mem_iff_getElem?.mp ha
    rw [List.getElem?_take] at hj
    split at hj
    · rename_i hjk
      cases a with
      | ok team => exact ⟨j, team, hjk, hj, hi⟩
      | error e => cases hi
    · cases hj
  · rintro ⟨j, team, hjk, hj, hi⟩
    refine ⟨.ok team, List.mem_iff_getElem?.mpr ⟨j, ?_⟩, hi⟩
    rw [List.getElem?_take, if_pos hjk]; exact hj

theorem teamOk_of_teamOf {rm : RM} {ms : Bool} {P : List Nat} {r : Req} {promised : Nat → Prop}
    (hP : ∀ i, i ∈ P ↔ promised i) {team : List Nat}
    (h : TeamOf rm ms (filterType rm r.useGpus (filterOut (freshAvail rm) P)) r.n team) :
    TeamOk rm ms r promised team := by
  have hget : ∀ i ∈ team, ∃ x, rm.rsets[i]? = some x := fun i hi => get_of_lt (team_mem h hi).1
  have hgrp : ∀ i ∈ team, ∀ g, decide ((rm.rsets[i]?).map (·.group) = some g) = decide (grpOf rm i = g) := by
    intro i hi g
    obtain ⟨x, hx⟩ := hget i hi
    rw [grpOf_get hx, hx]; simp
  constructor
  · intro i hi
    obtain ⟨x, hx⟩ := hget i hi
    refine ⟨x, hx, ?_⟩
    intro b hb
    have := (team_mem h hi).2.2.2
    rw [typeOk_get hx, hb] at this
    cases b <;> simp [rsOk] at this <;> exact this
  · intro i hi; exact (team_mem h hi).2.1
  · intro i hi hp; exact (team_mem h hi).2.2.1 ((hP i).mpr hp)
  · exact h.sorted
  · exact h.enough
  · obtain ⟨m, hm⟩ := h.even
    refine ⟨m, ?_⟩
    intro i x hi hx
    rw [← hm i hi]
    apply List.countP_congr
    intro j hj
    rw [hgrp j hj, grpOf_get hx]
  · intro hms i j x y hi hj hx hy
    obtain ⟨k, hk, h1, h2⟩ := h.slots hms i hi j hj
    obtain ⟨z, hz⟩ := hget k hk
    refine ⟨k, z, hk, hz, ?_, ?_⟩
    · rw [← grpOf_get hz, h1, grpOf_get hy]
    · rw [← slotOf_get hz, h2, slotOf_get hx]

/-- C22. For every layout built by the code, every pattern of owners (and any counters), every option
setting, every iteration order of sets and every sequence of requests: each granted team is proper with respect to
the teams granted before it in the same allocation call. -/
theorem C22_team_valid {α} [DecidableEq α] (n : Nat) (nodes : List α) (hnd : nodes.Nodup) (gpn : Nat) (gpg : Option Nat)
    (hg : gpg ≠ some 0) (rm0 rm : RM) (h0 : mkRM n nodes gpn gpg = some rm0) (hl : SameLayout rm rm0)
    (ord : List Nat → List Nat) (hord : ∀ l, (ord l).Perm l) (sf ms : Bool) (reqs : List Req)
    (k : Nat) (r : Req) (team : List Nat) (hr : reqs[k]? = some r)
    (ha : (session rm ord (mkSched rm sf ms) reqs).2[k]? = some (.ok team)) :
    TeamOk rm ms r (promisedBefore (session rm ord (mkSched rm sf ms) reqs).2 k) team := by
  have hw := lwf_layout hnd hg h0 hl
  obtain ⟨s', h1, h2⟩ := session_answer hw hord reqs [] _ (mkSched_inv rm sf ms) k r _ hr ha
  rw [List.nil_append] at h1
  rcases (assign_spec hw hord h1 r.n r.useGpus r.params).2 with ⟨team', e, ht⟩ | e | e
  · rw [h2] at e
    injection e with e
    subst e
    exact teamOk_of_teamOf (fun i => mem_grantedAll_take) ht
  · rw [h2] at e; cases e
  · rw [h2] at e; cases e

/-- Distinctness of all sets promised within one allocation call follows. -/
theorem C22_teams_disjoint {α} [DecidableEq α] (n : Nat) (nodes : List α) (hnd : nodes.Nodup) (gpn : Nat) (gpg : Option Nat)
    (hg : gpg ≠ some 0) (rm0 rm : RM) (h0 : mkRM n nodes gpn gpg = some rm0) (hl : SameLayout rm rm0)
    (ord : List Nat → List Nat) (hord : ∀ l, (ord l).Perm l) (sf ms : Bool) (reqs : List Req)
    (j k : Nat) (t u : List Nat) (hjk : j < k)
    (hj : (session rm ord (mkSched rm sf ms) reqs).2[j]? = some (.ok t))
    (hk : (session rm ord (mkSched rm sf ms) reqs).2[k]? = some (.ok u)) : ∀ i ∈ t, i ∉ u := by
  have hlen : ∀ (reqs : List Req) (s : Sched), (session rm ord s reqs).2.length = reqs.length := by
    intro reqs
    induction reqs with
    | nil => intro s; rfl
    | cons r rs ih => intro s; simp [session, ih]
  have hk' : k < reqs.length := by
    rw [← hlen reqs (mkSched rm sf ms)]; exact (List.getElem?_eq_some_iff.mp hk).1
  have := C22_team_valid n nodes hnd gpn gpg hg rm0 rm h0 hl ord hord sf ms reqs k reqs[k] u
    (List.getElem?_eq_getElem hk') hk
  intro i hi hu
  exact this.new i hu ⟨j, t, hjk, hj, hi⟩

/-- 6 sets on 3 nodes with one GPU each, set 2 busy: two granted requests and one refused. -/
def exRM : RM := rmRun ((mkRM 6 ["a", "b", "c"] 1 none).getD ⟨[], [], 0, 0, 0, 0, 0, 0, 0⟩) [.assign [2] 1]

example : (session exRM id (mkSched exRM false true) [⟨2, some true, []⟩, ⟨2, none, []⟩, ⟨1, none, []⟩]).2
    = [.ok [0, 4], .error .insufficientFree, .ok [1]] := by decide +kernel

/-! ## C23 -/

/-- Number of existing sets of the requested type (`none`: any type). -/
def existing (rm : RM) (t : Option Bool) : Nat := rm.rsets.countP fun x => decide (∀ b, t = some b → x.gpu = b)

theorem total_spec (rm : RM) (t : Option Bool) : totalOf rm t = existing rm t := by
  unfold existing
  cases t with
  | none =>
    show rm.rsets.length = _
    rw [eq_comm, List.countP_eq_length]
    intro x _; simp
  | some b =>
    cases b
    · show rm.rsets.countP (fun x => !x.gpu) = _
      apply List.countP_congr; intro x _; simp
    · show rm.rsets.countP (·.gpu) = _
      apply List.countP_congr; intro x _; simp

/-- A request for more sets than exist of the type is rejected in every state of the manager and the scheduler. -/
theorem C23_rejected (rm : RM) (ord : List Nat → List Nat) (s : Sched) (r : Req)
    (h : r.n > existing rm r.useGpus) :
    (assign rm ord s r.n r.useGpus r.params).2 = .error .insufficientResources := by
  have ht := total_spec rm r.useGpus
  rw [← ht] at h
  unfold assign
  rw [if_neg (by omega)]
  rcases checkTotal_cases rm s r.n r.useGpus with h1 | h1 | h1
  · omega
  · rw [h1.1]
  · omega

example : (assign exRM id (mkSched exRM false false) 4 (some true) []).2 = .error .insufficientResources := by decide +kernel

/-- A request that is not rejected forever never yields that error: the error means that more sets were requested
than exist. -/
theorem C23_rejected_only {α} [DecidableEq α] (n : Nat) (nodes : List α) (hnd : nodes.Nodup) (gpn : Nat) (gpg : Option Nat)
    (hg : gpg ≠ some 0) (rm0 rm : RM) (h0 : mkRM n nodes gpn gpg = some rm0) (hl : SameLayout rm rm0)
    (ord : List Nat → List Nat) (hord : ∀ l, (ord l).Perm l) (sf ms : Bool) (reqs : List Req)
    (k : Nat) (r : Req) (hr : reqs[k]? = some r)
    (ha : (session rm ord (mkSched rm sf ms) reqs).2[k]? = some (.error .insufficientResources)) :
    r.n > existing rm r.useGpus := by
  have hw := lwf_layout hnd hg h0 hl
  obtain ⟨s', h1, h2⟩ := session_answer hw hord reqs [] _ (mkSched_inv rm sf ms) k r _ hr ha
  have ht := total_spec rm r.useGpus
  rw [← ht]
  unfold assign at h2
  by_cases hz : r.n = 0
  · rw [if_pos hz] at h2; cases h2
  · rw [if_neg hz] at h2
    rcases checkTotal_cases rm s' r.n r.useGpus with h3 | h3 | h3
    · rw [h3.1] at h2
      simp only at h2
      rw [h1.avail, h1.sf, h1.ms] at h2
      rcases chooseTeam_spec hw hord (filterOut_dwf (freshAvail_dwf rm) ([] ++ grantedAll (List.take k (session rm ord (mkSched rm sf ms) reqs).2)))
        (by rw [filterOut, List.length_map, freshAvail_length, hw.ngroups]) sf ms (by omega : 0 < r.n)
        (by omega : r.n ≤ totalOf rm r.useGpus) r.params with ⟨team, e, _⟩ | e
      · rw [e] at h2; cases h2
      · rw [e] at h2; cases h2
    · exact h3.2
    · rw [h3.1] at h2; cases h2

/-- Full statement: on every layout with all sets free every request up to the total is granted.  Proved for
layouts in which every node carries the same number of sets (number of sets a multiple of the number of nodes, or at
most the number of nodes, no `gpus_per_group`), for all options, types and parameters.  Missing: unevenly filled layouts, for
which it is false (`C23_uneven_witness`), except requests fitting on one node (`C24_single_node`). -/
theorem C23_granted_partial {α} [DecidableEq α] (n : Nat) (nodes : List α) (hnd : nodes.Nodup) (gpn : Nat)
    (rm0 : RM) (h0 : mkRM n nodes gpn none = some rm0) (heven : n % nodes.length = 0 ∨ n ≤ nodes.length)
    (ops : List RMOp) (hops : ∀ team w, RMOp.assign team w ∈ ops → team.Nodup)
    (hfree : ∀ o ∈ (rmRun rm0 ops).assigned, o = none)
    (ord : List Nat → List Nat) (hord : ∀ l, (ord l).Perm l) (sf ms : Bool) (r : Req)
    (hle : r.n ≤ existing rm0 r.useGpus) :
    ∃ team, (assign (rmRun rm0 ops) ord (mkSched (rmRun rm0 ops) sf ms) r.n r.useGpus r.params).2 = .ok team := by
  have hl := rmRun_layout ops rm0
  have hex := rmRun_exact ops rm0 (mkRM_exact h0) hops
  obtain ⟨m, hb⟩ := mkRM_even hnd h0 heven
  obtain ⟨_, _, _, _, _, _, h4, h5⟩ := mkRM_blocks hnd (by simp) h0
  have hle : r.n ≤ existing (rmRun rm0 ops) r.useGpus := by unfold existing; rw [hl.rsets]; exact hle
  rw [← hl.rsets, ← hl.rpn] at hb
  rw [← hl.gpn, ← hl.rpn] at h4
  rw [← hl.npn, ← hl.rpn] at h5
  have hw := lwf_layout hnd (by simp) h0 hl
  clear hl
  generalize rmRun rm0 ops = rm at *
  have ht := total_spec rm r.useGpus
  rw [← ht] at hle
  unfold assign
  by_cases hz : r.n = 0
  · rw [if_pos hz]; exact ⟨[], rfl⟩
  · rw [if_neg hz]
    have hcnt : (totalOf rm r.useGpus : Int) ≤ cnt (mkSched rm sf ms) r.useGpus := by
      have h1 := numFree_all_free hex.len (rsOk r.useGpus) hfree
      have h2 : totalOf rm r.useGpus = rm.rsets.countP (rsOk r.useGpus) := by
        cases hu : r.useGpus with
        | none => exact (List.countP_eq_length.mpr (fun _ _ => rfl)).symm
        | some b => cases b <;> rfl
      rw [h2, ← h1]
      cases hu : r.useGpus with
      | none => show _ ≤ rm.rsetsFree; rw [hex.all]; exact Int.le_refl _
      | some b =>
        cases b
        · show _ ≤ rm.nongpuFree; rw [hex.nongpu]; exact Int.le_refl _
        · show _ ≤ rm.gpuFree; rw [hex.gpu]; exact Int.le_refl _
    rcases checkTotal_cases rm (mkSched rm sf ms) r.n r.useGpus with h3 | h3 | h3
    · rw [h3.1]
      simp only
      obtain ⟨e1, e2⟩ := even_groups hb hex.len hfree h4 h5 r.useGpus
      have hval : filterType rm r.useGpus (getAvail rm (mkSched rm sf ms))
          = (groupsOf rm).map fun g => (g, availOf rm [] r.useGpus g) := by
        rw [← valid_eq, filterOut_nil]; rfl
      obtain ⟨team, hteam⟩ := choose_even hw hord (freshAvail_dwf rm)
        (by rw [freshAvail_length, hw.ngroups]) sf ms (by omega : 0 < r.n) hle (t := r.useGpus)
        (by
          intro p hp
          rw [show freshAvail rm = getAvail rm (mkSched rm sf ms) from rfl, hval, List.mem_map] at hp
          obtain ⟨g, hg, rfl⟩ := hp
          exact e1 g hg)
        (by
          intro p hp q hq
          rw [show freshAvail rm = getAvail rm (mkSched rm sf ms) from rfl, hval, List.mem_map] at hp hq
          obtain ⟨g, hg, rfl⟩ := hp
          obtain ⟨g', hg', rfl⟩ := hq
          exact e2 g hg g' hg') r.params
      have : chooseTeam rm ord (mkSched rm sf ms).split2fit (mkSched rm sf ms).matchSlots
          (getAvail rm (mkSched rm sf ms)) r.n r.useGpus r.params = .ok team := hteam
      rw [this]
      exact ⟨team, rfl⟩
    · omega
    · omega

example : (mkRM 6 ["a", "b", "c"] 1 none).map (fun rm => (assign rm id (mkSched rm false true) 5 none []).2)
    = some (.ok [0, 1, 2, 3, 4, 5]) := by decide +kernel

/-- The layout of 5 sets on 2 nodes. -/
def unevenRM : RM :=
  ⟨[⟨1, 0, false⟩, ⟨1, 1, false⟩, ⟨1, 2, false⟩, ⟨2, 0, false⟩, ⟨2, 1, false⟩], List.replicate 5 none, 5, 0, 5, 3, 0, 3, 2⟩

/-- On an unevenly filled layout (5 sets on 2 nodes, all free) a request for all 5 sets is never granted. -/
theorem C23_uneven_witness : mkRM 5 ["a", "b"] 0 none = some unevenRM ∧ unevenRM.rsets.length = 5 ∧
    (∀ o ∈ unevenRM.assigned, o = none) ∧
    ∀ sf ms, (assign unevenRM id (mkSched unevenRM sf ms) 5 none []).2 = .error .insufficientFree := by
  refine ⟨by decide +kernel, rfl, by decide, ?_⟩
  intro sf ms
  cases sf
  · cases ms <;> decide +kernel
  · have h1 : checkTotal unevenRM (mkSched unevenRM true ms) 5 none = none := by cases ms <;> decide +kernel
    have h2 : filterType unevenRM none (getAvail unevenRM (mkSched unevenRM true ms)) = [(1, [0, 1, 2]), (2, [3, 4])] := by
      cases ms <;> decide +kernel
    have h3 : evenGrps 5 (maxGrpsize unevenRM none) unevenRM.numGroups = .ok (6, 2, 3) := by decide +kernel
    have h4 : sortedLens [(1, [0, 1, 2]), (2, [3, 4])] = [3, 2] := by decide +kernel
    have h5 : unevenSplit [3, 2] 2 [] 6 2 2 = .error .insufficientFree := by unfold unevenSplit; decide
    have h6 : matchingSlots (slotsByGroup unevenRM [(1, [0, 1, 2]), (2, [3, 4])]) 2 3 = .ok none := by decide +kernel
    have h7 : splitLoop (slotsByGroup unevenRM [(1, [0, 1, 2]), (2, [3, 4])]) [3, 2] 2 [] 6 (by omega) 2 2 = .error .insufficientFree := by
      unfold splitLoop
      split
      · rename_i e he; rw [h5] at he; cases he; rfl
      · rename_i he; rw [h5] at he; cases he
    have h8 : chooseTeam unevenRM id true ms (getAvail unevenRM (mkSched unevenRM true ms)) 5 none [] = .error .insufficientFree := by
      unfold chooseTeam
      simp only [h2, h3, h4]
      cases ms
      · simp only [show unevenRM.numGroups = 2 from rfl]
        simp [h5]
      · simp [h6, show unevenRM.numGroups = 2 from rfl, h7]
    unfold assign
    rw [if_neg (by omega), h1]
    simp only
    rw [show (mkSched unevenRM true ms).split2fit = true from rfl, show (mkSched unevenRM true ms).matchSlots = ms from rfl, h8]

/-! ## C24 -/

/-- The sets of group `g` and type `t` that are free and not promised. -/
def usable (rm : RM) (promised : List Nat) (t : Option Bool) (g : Nat) : List Nat :=
  (List.range rm.rsets.length).filter fun i =>
    decide (rm.assigned[i]? = some none) && decide (i ∉ promised) &&
      (rm.rsets[i]?).any fun x => decide (x.group = g) && decide (∀ b, t = some b → x.gpu = b)

theorem usable_eq (rm : RM) (P : List Nat) (t : Option Bool) (g : Nat) : usable rm P t g = availOf rm P t g := by
  unfold usable availOf
  apply List.filter_congr
  intro i hi
  obtain ⟨x, hx⟩ := get_of_lt (List.mem_range.mp hi)
  rw [grpOf_get hx, typeOk_get hx]
  have h1 : decide (∀ b, t = some b → x.gpu = b) = rsOk t x := by
    cases t with
    | none => simp [rsOk]
    | some b => cases b <;> simp [rsOk]
  rw [hx]
  simp only [isFree, Option.any_some, h1]
  cases decide (rm.assigned[i]? = some none) <;> cases decide (x.group = g) <;> cases decide (i ∉ P) <;>
    cases rsOk t x <;> rfl

/-- C24, with or without slot matching: after any assignments and releases and any earlier requests of the same call, a
request is granted if some node group has enough usable sets of the type; the team has exactly the requested
size and lies on one group with the fewest sufficient usable sets. -/
theorem C24_single_node {α} [DecidableEq α] (n : Nat) (nodes : List α) (hnd : nodes.Nodup) (gpn : Nat) (gpg : Option Nat)
    (hg : gpg ≠ some 0) (rm0 : RM) (h0 : mkRM n nodes gpn gpg = some rm0)
    (ops : List RMOp) (hops : ∀ team w, RMOp.assign team w ∈ ops → team.Nodup)
    (ord : List Nat → List Nat) (hord : ∀ l, (ord l).Perm l) (sf ms : Bool) (reqs : List Req) (r : Req)
    (rm : RM) (hrm : rm = rmRun rm0 ops) (s : Sched) (P : List Nat)
    (hs : s = (session rm ord (mkSched rm sf ms) reqs).1)
    (hP : P = grantedAll (session rm ord (mkSched rm sf ms) reqs).2)
    (hpos : 0 < r.n) (g : Nat) (hgrp : r.n ≤ (usable rm P r.useGpus g).length) :
    ∃ team g', (assign rm ord s r.n r.useGpus r.params).2 = .ok team ∧ team.length = r.n ∧
      (∀ i ∈ team, i ∈ usable rm P r.useGpus g') ∧
      ∀ g'', r.n ≤ (usable rm P r.useGpus g'').length →
        (usable rm P r.useGpus g').length ≤ (usable rm P r.useGpus g'').length := by
  have hl : SameLayout rm rm0 := by rw [hrm]; exact rmRun_layout ops rm0
  have hex : Exact rm := by rw [hrm]; exact rmRun_exact ops rm0 (mkRM_exact h0) hops
  have hw := lwf_layout hnd hg h0 hl
  have hinv := session_inv hw hord reqs [] _ (mkSched_inv rm sf ms)
  have hcinv := session_cinv hw hord reqs [] _ (mkSched_inv rm sf ms) (mkSched_cinv hex sf ms)
  rw [List.nil_append, ← hs, ← hP] at hinv hcinv
  rw [usable_eq] at hgrp
  have hmemg : ∀ g, r.n ≤ (availOf rm P r.useGpus g).length → g ∈ groupsOf rm := by
    intro g hg
    cases hc : availOf rm P r.useGpus g with
    | nil => rw [hc] at hg; simp at hg; omega
    | cons i l =>
      have hi : i ∈ availOf rm P r.useGpus g := by rw [hc]; exact List.mem_cons_self
      have := mem_availOf.mp hi
      rw [← this.2.2.1]
      exact grpOf_mem this.1
  have hfc : r.n ≤ freeCount rm P r.useGpus := Nat.le_trans hgrp (availOf_le _ _ _ _)
  have htot : r.n ≤ totalOf rm r.useGpus := Nat.le_trans hfc (freeCount_le_total _ _ _)
  have hcnt : (freeCount rm P r.useGpus : Int) ≤ cnt s r.useGpus := by
    match hu : r.useGpus with
    | none => exact hcinv.all
    | some true => exact hcinv.gpu
    | some false => exact hcinv.nongpu
  have hct : checkTotal rm s r.n r.useGpus = none := by
    rcases checkTotal_cases rm s r.n r.useGpus with h3 | h3 | h3
    · exact h3.1
    · omega
    · omega
  have hspec := (assign_spec hw hord hinv r.n r.useGpus r.params).2
  obtain ⟨team, p, c1, c2, c3, c4, c5, c6⟩ := choose_single hw hord (filterOut_dwf (freshAvail_dwf rm) P)
    (by rw [filterOut, List.length_map, freshAvail_length, hw.ngroups]) sf ms hpos htot
    (by
      intro p hp
      rw [valid_eq, List.mem_map] at hp
      obtain ⟨g, _, rfl⟩ := hp
      exact availOf_le_max hw P r.useGpus g)
    r.params ⟨(g, availOf rm P r.useGpus g), by
      rw [valid_eq]; exact List.mem_map.mpr ⟨g, hmemg g hgrp, rfl⟩, hgrp⟩
  have hans : (assign rm ord s r.n r.useGpus r.params).2 = .ok team := by
    unfold assign
    rw [if_neg (by omega), hct]
    simp only
    rw [hinv.avail, hinv.sf, hinv.ms, c1]
  rw [valid_eq] at c2 c6
  rw [List.mem_map] at c2
  obtain ⟨g', hg', rfl⟩ := c2
  refine ⟨team, g', hans, c4, ?_, ?_⟩
  · intro i hi
    rw [usable_eq]
    rcases hspec with ⟨team', e, ht⟩ | e | e
    · rw [hans] at e
      injection e with e
      subst e
      have := team_mem ht hi
      exact mem_availOf.mpr ⟨this.1, this.2.1, c5 i hi, this.2.2.1, this.2.2.2⟩
    · rw [hans] at e; cases e
    · rw [hans] at e; cases e
  · intro g'' hg''
    rw [usable_eq] at hg''
    rw [usable_eq, usable_eq]
    exact c6 (g'', availOf rm P r.useGpus g'') (List.mem_map.mpr ⟨g'', hmemg g'' hg'', rfl⟩) hg''

/-- 8 sets on 2 nodes with set 0 busy: a request for 3 sets goes to the first node, which has exactly 3. -/
example : (mkRM 8 ["a", "b"] 0 none).map (fun rm0 =>
    let rm := rmRun rm0 [.assign [0] 1]
    ((usable rm [] none 1).length, (usable rm [] none 2).length, (assign rm id (mkSched rm false false) 3 none []).2))
    = some (3, 4, .ok [1, 2, 3]) := by decide +kernel

/-! ## C25 -/

/-- Every request of every session on every layout and busy pattern (with any counters) is answered by a team, "not
enough free" or "not enough in total"; the internal failures never occur.  Termination is part of the
definition of `session` (a total function whose loops have proved termination measures). -/
theorem C25_always_answers {α} [DecidableEq α] (n : Nat) (nodes : List α) (hnd : nodes.Nodup) (gpn : Nat) (gpg : Option Nat)
    (hg : gpg ≠ some 0) (rm0 rm : RM) (h0 : mkRM n nodes gpn gpg = some rm0) (hl : SameLayout rm rm0)
    (ord : List Nat → List Nat) (hord : ∀ l, (ord l).Perm l) (sf ms : Bool) (reqs : List Req) :
    (session rm ord (mkSched rm sf ms) reqs).2.length = reqs.length ∧
    ∀ a ∈ (session rm ord (mkSched rm sf ms) reqs).2,
      (∃ team, a = .ok team) ∨ a = .error .insufficientFree ∨ a = .error .insufficientResources := by
  have hlen : ∀ (reqs : List Req) (s : Sched), (session rm ord s reqs).2.length = reqs.length := by
    intro reqs
    induction reqs with
    | nil => intro s; rfl
    | cons r rs ih => intro s; simp [session, ih]
  refine ⟨hlen _ _, ?_⟩
  intro a ha
  obtain ⟨k, hk⟩ := List.mem_iff_getElem?.mp ha
  have hk' : k < reqs.length := by
    rw [← hlen reqs (mkSched rm sf ms)]; exact (List.getElem?_eq_some_iff.mp hk).1
  have hw := lwf_layout hnd hg h0 hl
  obtain ⟨s', h1, h2⟩ := session_answer hw hord reqs [] _ (mkSched_inv rm sf ms) k reqs[k] a
    (List.getElem?_eq_getElem hk') hk
  rw [← h2]
  rcases (assign_spec hw hord h1 reqs[k].n reqs[k].useGpus reqs[k].params).2 with ⟨team, e, _⟩ | e | e
  · exact Or.inl ⟨team, e⟩
  · exact Or.inr (Or.inl e)
  · exact Or.inr (Or.inr e)

example : (session unevenRM id (mkSched unevenRM false true) [⟨4, none, []⟩, ⟨9, none, []⟩, ⟨1, some true, []⟩, ⟨3, none, []⟩]).2
    = [.ok [0, 1, 3, 4], .error .insufficientResources, .error .insufficientResources, .error .insufficientFree] := by
  decide +kernel

/-! ## C26 -/

theorem session_append (rm : RM) (ord : List Nat → List Nat) : ∀ (as bs : List Req) (s : Sched),
    session rm ord s (as ++ bs) = ((session rm ord (session rm ord s as).1 bs).1,
      (session rm ord s as).2 ++ (session rm ord (session rm ord s as).1 bs).2) := by
  intro as
  induction as with
  | nil => intro bs s; rfl
  | cons r rs ih => intro bs s; simp only [List.cons_append, session, ih]

/-- C26. If a request in the middle of a session is refused, all later requests are answered as if it had not been made.
No assumption on the layout or the state. -/
theorem C26_failed_leaves_nothing (rm : RM) (ord : List Nat → List Nat) (s : Sched) (before after : List Req) (r : Req)
    (e : SErr) (hfail : (session rm ord s (before ++ [r])).2[before.length]? = some (.error e)) :
    (session rm ord s (before ++ r :: after)).2
      = (session rm ord s before).2 ++ .error e :: ((session rm ord s (before ++ after)).2.drop before.length) := by
  have hlen : ∀ (reqs : List Req) (s : Sched), (session rm ord s reqs).2.length = reqs.length := by
    intro reqs
    induction reqs with
    | nil => intro s; rfl
    | cons r rs ih => intro s; simp [session, ih]
  rw [session_append] at hfail
  simp only [List.getElem?_append_right (Nat.le_of_eq (hlen before s)), hlen, Nat.sub_self, session,
    List.getElem?_cons_zero, Option.some.injEq] at hfail
  rw [session_append, session_append]
  simp only
  have hd : ∀ l, ((session rm ord s before).2 ++ l).drop before.length = l := by
    intro l
    have := List.drop_left (l₁ := (session rm ord s before).2) (l₂ := l)
    rwa [hlen] at this
  rw [hd]
  congr 1
  have hq := session_eqv (ord := ord) after _ _ (assign_failed hfail)
  simp only [session, hfail, hq]

example : (session unevenRM id (mkSched unevenRM false false) ([⟨2, none, []⟩] ++ [⟨4, none, []⟩])).2
    = [.ok [3, 4], .error .insufficientFree] := by decide +kernel

end Verif.Sched
