import Verif.Resources.RsetLemmas
import Verif.Resources.CountLemmas
import Verif.Resources.IndexLemmas
/-!
Properties C21, C27, C28, C29: dividing nodes into resource sets, the default worker map, slots and GPU
numbers, and the counters of free resource sets.
-/
namespace Verif.Res

/-! ## C27: nodes are divided completely and evenly -/

/-- More nodes than resource sets: the parts in order are exactly the node list, every part has a node and
sizes differ by at most one (they are `⌊N/n⌋` or `⌊N/n⌋+1`). -/
theorem C27_more_nodes {α} (n : Nat) (nodes : List α) (hn : 0 < n) (h : n < nodes.length) :
    ∃ split loc, splitList n nodes = some (split, loc) ∧ split.length = n ∧ split.flatten = nodes ∧
      ∀ p ∈ split, p ≠ [] ∧ (p.length = nodes.length / n ∨ p.length = nodes.length / n + 1) := by
  have hne : nodes ≠ [] := by intro e; subst e; simp at h
  refine ⟨_, _, splitList_super hn hne h, bestSplit_length _ _, bestSplit_flatten nodes hn, ?_⟩
  intro p hp
  exact ⟨bestSplit_nonempty hn (Nat.le_of_lt h) p hp, bestSplit_part_mem nodes hn hp⟩

example : (splitList 2 ["a", "b", "c"]).map (·.1) = some [["a", "b"], ["c"]] := by decide

/-- At least as many resource sets as nodes: every set has exactly one node of the list, sets are ordered by
node, the number of sets on each node is `⌊n/N⌋` or `⌊n/N⌋+1`, hence every node is used. -/
theorem C27_more_sets {α} [DecidableEq α] (n : Nat) (nodes : List α) (hne : nodes ≠ []) (hnd : nodes.Nodup)
    (h : nodes.length ≤ n) :
    ∃ split loc, splitList n nodes = some (split, loc) ∧ split.length = n ∧
      (∀ p ∈ split, ∃ x ∈ nodes, p = [x]) ∧
      (∀ (i j p q : Nat) (x y : α), split[i]? = some [x] → split[j]? = some [y] → nodes[p]? = some x →
        nodes[q]? = some y → p < q → i < j) ∧
      (∀ x ∈ nodes, (split.count [x] = n / nodes.length ∨ split.count [x] = n / nodes.length + 1) ∧
        [x] ∈ split) := by
  have hpos : 0 < nodes.length := List.length_pos_iff.mpr hne
  have hn : 0 < n := Nat.lt_of_lt_of_le hpos h
  have hcount : ∀ x ∈ nodes, ((expandList nodes.length n nodes).1.map (fun x => [x])).count [x] = n / nodes.length ∨
      ((expandList nodes.length n nodes).1.map (fun x => [x])).count [x] = n / nodes.length + 1 := by
    intro x hx
    rw [count_map_inj (fun y => [y]) (by intro a b h; simpa using h)]
    obtain ⟨i, hi⟩ := List.mem_iff_getElem?.mp hx
    rw [expandList_count hnd hi]
    unfold repeats; split <;> simp
  refine ⟨_, _, splitList_sub hn hne h, ?_, ?_, ?_, ?_⟩
  · rw [List.length_map, expandList_length n nodes hne]
  · intro p hp
    rw [List.mem_map] at hp
    obtain ⟨x, hx, rfl⟩ := hp
    exact ⟨x, expandList_mem hx, rfl⟩
  · intro i j p q x y hi hj hp hq hpq
    obtain ⟨p', a, x', hp1, hp2, hp3, e1⟩ := split_get_sub i [x] hi
    obtain ⟨q', b, y', hq1, hq2, hq3, e2⟩ := split_get_sub j [y] hj
    simp at e1 e2
    subst e1; subst e2
    have e1 := get_inj_of_nodup hnd hp hp1
    have e2 := get_inj_of_nodup hnd hq hq1
    subst e1; subst e2
    have h1 := cut_repeats nodes.length n p
    have h2 := cut_mono' (n / nodes.length) (n % nodes.length) (Nat.succ_le_of_lt hpq)
    simp only [Nat.succ_eq_add_one] at h2
    omega
  · intro x hx
    refine ⟨hcount x hx, ?_⟩
    rw [← List.count_pos_iff]
    have := hcount x hx
    have h3 : 0 < n / nodes.length := Nat.div_pos h hpos
    omega

example : (splitList 5 ["a", "b"]).map (·.1) = some [["a"], ["a"], ["a"], ["b"], ["b"]] := by decide

theorem zip_replicates {α} (g : Nat → Nat) : ∀ (l : List (α × Nat)) (i : Nat) (x : α) (c : Nat),
    (l.flatMap (fun p => List.replicate (g p.2) p.1))[i]? = some x →
    (l.flatMap (fun p => List.replicate (g p.2) (g p.2)))[i]? = some c → ∃ p ∈ l, p.1 = x ∧ c = g p.2
  | [], i, x, c, h, _ => by simp at h
  | p :: l, i, x, c, h1, h2 => by
    rw [List.flatMap_cons] at h1 h2
    rcases Nat.lt_or_ge i (g p.2) with hi | hi
    · rw [List.getElem?_append_left (by simpa using hi), List.getElem?_replicate, if_pos hi] at h1 h2
      exact ⟨p, by simp, by simpa using h1, by simpa using h2.symm⟩
    · rw [List.getElem?_append_right (by simpa using hi), List.length_replicate] at h1 h2
      obtain ⟨q, hq, h3⟩ := zip_replicates g l _ x c h1 h2
      exact ⟨q, List.mem_cons_of_mem _ hq, h3⟩

theorem length_replicates {α} (g : Nat → Nat) : ∀ (l : List (α × Nat)),
    (l.flatMap (fun p => List.replicate (g p.2) (g p.2))).length = (l.flatMap (fun p => List.replicate (g p.2) p.1)).length
  | [] => rfl
  | p :: l => by simp [List.flatMap_cons, length_replicates g l]

theorem count_one_of_flatten {α} [DecidableEq α] : ∀ {l : List (List α)} {p : List α}, l.flatten.Nodup → p ≠ [] → p ∈ l →
    l.count p = 1
  | [], _, _, _, h => by simp at h
  | q :: l, p, hn, hp, h => by
    rw [List.flatten_cons, List.nodup_append] at hn
    obtain ⟨_, h2, h3⟩ := hn
    have hx : ∃ x, x ∈ p := List.exists_mem_of_ne_nil p hp
    obtain ⟨x, hx⟩ := hx
    by_cases e : q = p
    · subst e
      have : q ∉ l := fun hm => h3 x hx x (List.mem_flatten.mpr ⟨q, hm, hx⟩) rfl
      rw [List.count_cons_self, List.count_eq_zero.mpr this]
    · rw [List.count_cons_of_ne e]
      exact count_one_of_flatten h2 hp ((List.mem_cons.mp h).resolve_left (fun e' => e e'.symm))

/-- The counts beside the list of sets: there is one for every set, and it is the number of sets which have the nodes of this
set.  With more nodes than sets it is one. -/
theorem C27_local {α} [DecidableEq α] (n : Nat) (nodes : List α) (hn : 0 < n) (hne : nodes ≠ []) (hnd : nodes.Nodup) :
    ∃ split loc, splitList n nodes = some (split, loc) ∧ loc.length = n ∧
      ∀ (i : Nat) (p : List α) (c : Nat), split[i]? = some p → loc[i]? = some c → c = split.count p := by
  rcases Nat.lt_or_ge n nodes.length with h | h
  · refine ⟨_, _, splitList_super hn hne h, by simp, ?_⟩
    intro i p c h1 h2
    have hm := List.mem_of_getElem? h1
    rw [count_one_of_flatten (by rw [bestSplit_flatten nodes hn]; exact hnd)
      (bestSplit_nonempty hn (Nat.le_of_lt h) p hm) hm]
    rw [List.getElem?_replicate] at h2
    split at h2
    · simpa using h2.symm
    · cases h2
  · refine ⟨_, _, splitList_sub hn hne h, ?_, ?_⟩
    · have := expandList_length n nodes hne
      unfold expandList at this ⊢
      exact (length_replicates _ _).trans this
    · intro i p c h1 h2
      rw [List.getElem?_map] at h1
      cases hx : (expandList nodes.length n nodes).1[i]? with
      | none => rw [hx] at h1; cases h1
      | some x =>
        rw [hx] at h1
        cases h1
        obtain ⟨q, hq, e, e2⟩ := zip_replicates (repeats nodes.length n) _ i x c (by simpa [expandList] using hx)
          (by simpa [expandList] using h2)
        rw [count_map_inj (fun y => [y]) (by intro a b h; simpa using h)]
        have := List.mem_zipIdx' hq
        rw [expandList_count hnd (i := q.2) (by rw [List.getElem?_eq_getElem this.1, ← this.2, e]), e2]

example : splitList 5 ["a", "b"] = some ([["a"], ["a"], ["a"], ["b"], ["b"]], [3, 3, 3, 2, 2]) ∧
    splitList 2 ["a", "b", "c"] = some ([["a", "b"], ["c"]], [1, 1]) := by decide

/-- Without GPU groups two resource sets are in the same group exactly when they have the same nodes. -/
theorem C27_groups {α} [DecidableEq α] (n : Nat) (nodes : List α) (hnd : nodes.Nodup) (gpn : Nat)
    (split : List (List α)) (loc : List Nat) (hs : splitList n nodes = some (split, loc)) (rm : RM)
    (hrm : mkRM n nodes gpn none = some rm) (i j : Nat) (nd nd' : List α) (r r' : RS)
    (hi : split[i]? = some nd) (hj : split[j]? = some nd')
    (hri : rm.rsets[i]? = some r) (hrj : rm.rsets[j]? = some r') : r.group = r'.group ↔ nd = nd' := by
  have hrs : rm.rsets = groupList split gpn none := by
    unfold mkRM at hrm; rw [hs] at hrm; simp at hrm; rw [← hrm]
  rw [hrs] at hri hrj
  obtain ⟨hn, hne⟩ := splitList_pos hs
  by_cases hle : nodes.length ≤ n
  · rw [splitList_sub hn hne hle] at hs
    injection hs with hs; injection hs with h1 h2
    subst h1
    obtain ⟨p, a, x, hp1, hp2, hp3, rfl⟩ := split_get_sub i nd hi
    obtain ⟨q, b, y, hq1, hq2, hq3, rfl⟩ := split_get_sub j nd' hj
    obtain ⟨p', a', x', hp1', hp2', hp3', rfl⟩ := rsets_get_sub hnd hne hle gpn hri
    obtain ⟨q', b', y', hq1', hq2', hq3', rfl⟩ := rsets_get_sub hnd hne hle gpn hrj
    obtain ⟨rfl, rfl⟩ := cut_unique hp2 hp2' (hp3.symm.trans hp3')
    obtain ⟨rfl, rfl⟩ := cut_unique hq2 hq2' (hq3.symm.trans hq3')
    simp only [List.cons.injEq, and_true]
    constructor
    · intro h
      have : p = q := by omega
      subst this
      rw [hp1] at hq1
      exact Option.some.inj hq1
    · intro h
      subst h
      rw [get_inj_of_nodup hnd hp1 hq1]
  · have hlt : n < nodes.length := by omega
    rw [splitList_super hn hne hlt] at hs
    injection hs with hs; injection hs with h1 h2
    subst h1
    rw [rsets_get_super hnd hn hlt gpn hri, rsets_get_super hnd hn hlt gpn hrj]
    simp only [Nat.add_right_cancel_iff]
    constructor
    · intro h; subst h; rw [hi] at hj; exact Option.some.inj hj
    · intro h
      subst h
      exact get_inj_of_nodup (bestSplit_nodup hn (Nat.le_of_lt hlt) hnd) hi hj

example : (mkRM 5 ["a", "b"] 0 none).map (fun rm => rm.rsets.map (·.group)) = some [1, 1, 1, 2, 2] := by decide

/-! ## C28: the default map from workers to resource sets -/

/-- For every number of resource sets: zero-resource workers map to nothing and the numbers handed to the other
workers, in worker order, are 0, 1, 2, … until the resource sets run out. -/
theorem C28_order (nworkers nrsets : Nat) (zero : List Nat) :
    (indexList nworkers nrsets zero).length = nworkers ∧
    (∀ w, 1 ≤ w → w ≤ nworkers → w ∈ zero → (indexList nworkers nrsets zero)[w - 1]? = some none) ∧
    (indexList nworkers nrsets zero).filterMap id
      = List.range (min ((List.range' 1 nworkers).filter (fun w => decide (w ∉ zero))).length nrsets) := by
  refine ⟨indexLoop_length _ _ _ _ _, ?_, ?_⟩
  · intro w h1 h2 hz
    unfold indexList
    rw [indexLoop_get nrsets zero nworkers 1 0 (w - 1) (by omega), show 1 + (w - 1) = w by omega, if_pos hz]
  · unfold indexList
    rw [indexLoop_filterMap, List.range_eq_range']
    rfl

/-- Default number of resource sets (`num_workers - len(zero_resource_workers)`, rset_resources.py:57-58,
129-133): every worker that needs resources has a set, different workers have different sets, exactly the sets
`0 … n-1` are used. -/
theorem C28_one_to_one (nworkers : Nat) (zero : List Nat) (hnd : zero.Nodup)
    (hr : ∀ w ∈ zero, 1 ≤ w ∧ w ≤ nworkers) :
    (∀ w, 1 ≤ w → w ≤ nworkers →
      ((indexList nworkers (nworkers - zero.length) zero)[w - 1]? = some none ↔ w ∈ zero)) ∧
    (∀ w v k, 1 ≤ w → 1 ≤ v → (indexList nworkers (nworkers - zero.length) zero)[w - 1]? = some (some k) →
      (indexList nworkers (nworkers - zero.length) zero)[v - 1]? = some (some k) → w = v) ∧
    (indexList nworkers (nworkers - zero.length) zero).filterMap id = List.range (nworkers - zero.length) := by
  have hlen := needy_length hnd hr
  have hmono : ∀ i a b, a ≤ b → (needy zero i a).length ≤ (needy zero i b).length := by
    intro i a b hab
    unfold needy
    rw [show b = a + (b - a) by omega, ← List.range'_append_1]
    rw [List.filter_append, List.length_append]; omega
  have hstep : ∀ i k, i + k ∉ zero → (needy zero i (k + 1)).length = (needy zero i k).length + 1 := by
    intro i k hk
    unfold needy
    rw [List.range'_concat, List.filter_append, List.length_append]
    simp only [Nat.one_mul]
    simp [hk]
  have hlt : ∀ w, 1 ≤ w → w ≤ nworkers → w ∉ zero →
      (needy zero 1 (w - 1)).length < nworkers - zero.length := by
    intro w h1 h2 hz
    have a1 := hstep 1 (w - 1) (by rw [show 1 + (w - 1) = w by omega]; exact hz)
    have a2 := hmono 1 (w - 1 + 1) nworkers (by omega)
    omega
  refine ⟨?_, ?_, ?_⟩
  · intro w h1 h2
    unfold indexList
    rw [indexLoop_get _ zero nworkers 1 0 (w - 1) (by omega), show 1 + (w - 1) = w by omega]
    by_cases hz : w ∈ zero
    · simp [hz]
    · have := hlt w h1 h2 hz
      rw [if_neg hz, if_neg (by omega)]
      simp [hz]
  · have key : ∀ w k, 1 ≤ w → (indexList nworkers (nworkers - zero.length) zero)[w - 1]? = some (some k) →
        w ≤ nworkers ∧ w ∉ zero ∧ k = (needy zero 1 (w - 1)).length := by
      intro w k h1 hw
      have hwl : w ≤ nworkers := by
        have := (List.getElem?_eq_some_iff.mp hw).1
        rw [indexList, indexLoop_length] at this; omega
      unfold indexList at hw
      rw [indexLoop_get _ zero nworkers 1 0 (w - 1) (by omega), show 1 + (w - 1) = w by omega] at hw
      by_cases hz : w ∈ zero
      · rw [if_pos hz] at hw; cases hw
      · have := hlt w h1 hwl hz
        rw [if_neg hz, if_neg (by omega)] at hw
        simp at hw
        exact ⟨hwl, hz, hw.symm⟩
    intro w v k h1 h2 hw hv
    obtain ⟨w1, w2, w3⟩ := key w k h1 hw
    obtain ⟨v1, v2, v3⟩ := key v k h2 hv
    rcases Nat.lt_trichotomy w v with hlt' | heq | hgt
    · have a1 := hstep 1 (w - 1) (by rw [show 1 + (w - 1) = w by omega]; exact w2)
      have a2 := hmono 1 (w - 1 + 1) (v - 1) (by omega)
      omega
    · exact heq
    · have a1 := hstep 1 (v - 1) (by rw [show 1 + (v - 1) = v by omega]; exact v2)
      have a2 := hmono 1 (v - 1 + 1) (w - 1) (by omega)
      omega
  · rw [(C28_order nworkers (nworkers - zero.length) zero).2.2]
    unfold needy at hlen
    congr 1
    omega

example : indexList 4 3 [2] = [some 0, none, some 1, some 2] := by decide

/-! ## C29: slots and GPU numbers -/

/-- In the table of resource sets the sets of every group have the slots 0, 1, …, k-1 in order, where k is the
number of sets of the group. -/
theorem C29_group_slots {α} [DecidableEq α] (n : Nat) (nodes : List α) (hnd : nodes.Nodup) (gpn : Nat)
    (gpg : Option Nat) (hg : gpg ≠ some 0) (rm : RM) (hrm : mkRM n nodes gpn gpg = some rm) (g : Nat) :
    (rm.rsets.filter (fun r => decide (r.group = g))).map (·.slot)
      = List.range (rm.rsets.countP (fun r => decide (r.group = g))) := by
  unfold mkRM at hrm
  cases hs : splitList n nodes with
  | none => rw [hs] at hrm; cases hrm
  | some p =>
    obtain ⟨split, loc⟩ := p
    rw [hs] at hrm
    simp at hrm
    obtain ⟨hn, hne, hlen, hc⟩ := split_count hnd hs
    have hsne : split ≠ [] := by intro e; subst e; simp at hlen; omega
    obtain ⟨sizes, _, hb, _⟩ := groupList_blocks gpn gpg hg _ split hsne hc
    have e : rm.rsets = blocks gpn 1 sizes := by rw [← hrm]; exact hb
    rw [e, List.countP_eq_length_filter]
    have h1 := blocks_filter gpn sizes 1 g
    have h2 := congrArg List.length h1
    rw [List.length_map, List.length_range] at h2
    rw [h1, h2]

example : (mkRM 5 ["a", "b"] 2 none).map (·.rsets) = some
    [⟨1, 0, true⟩, ⟨1, 1, true⟩, ⟨1, 2, false⟩, ⟨2, 0, true⟩, ⟨2, 1, true⟩] := by decide

/-- Workers with disjoint teams have disjoint slots on every node, and disjoint GPU numbers, whatever the number
of GPUs per resource set and the limits on the numbers of GPUs. -/
theorem C29_disjoint {α} [DecidableEq α] (n : Nat) (nodes : List α) (hnd : nodes.Nodup) (split : List (List α))
    (loc : List Nat) (hs : splitList n nodes = some (split, loc)) (T U : List Nat) (hTU : ∀ i ∈ T, i ∉ U) (x : α) :
    (∀ s ∈ slotsOn split (rsetsOnNode n nodes.length) T x, s ∉ slotsOn split (rsetsOnNode n nodes.length) U x) ∧
    ∀ (m : Nat) (l l' : Option Nat) (k : Nat), k ∈ gpuIds m (slotsOn split (rsetsOnNode n nodes.length) T x) l →
      k ∉ gpuIds m (slotsOn split (rsetsOnNode n nodes.length) U x) l' := by
  have h1 : ∀ s ∈ slotsOn split (rsetsOnNode n nodes.length) T x,
      s ∉ slotsOn split (rsetsOnNode n nodes.length) U x := by
    intro s hT hU
    obtain ⟨i, hi, hsi⟩ := slotsOn_mem.mp hT
    obtain ⟨j, hj, hsj⟩ := slotsOn_mem.mp hU
    exact localSlots_distinct hnd hs (fun (e : i = j) => hTU i hi (by rw [e]; exact hj)) hsi hsj rfl
  refine ⟨h1, ?_⟩
  intro m l l' k hT hU
  obtain ⟨s, hs1, hs2, hs3⟩ := gpuIds_div hT
  obtain ⟨t, ht1, ht2, ht3⟩ := gpuIds_div hU
  have := range_unique hs2 hs3 ht2 ht3
  subst this
  exact h1 s hs1 ht1

/-- Full statement: for every layout, the slot a worker computes for a GPU resource set is the slot of the table
and its GPU numbers are below the number of GPUs of the node.
Proved for layouts in which the sets are distributed evenly over the nodes (or nodes outnumber sets); missing: uneven
layouts, where it is false (`C29_uneven_witness`). -/
theorem C29_gpu_bound_partial {α} [DecidableEq α] (n : Nat) (nodes : List α) (hnd : nodes.Nodup) (gpn : Nat)
    (heven : n % nodes.length = 0 ∨ n < nodes.length)
    (split : List (List α)) (loc : List Nat) (hs : splitList n nodes = some (split, loc)) (rm : RM)
    (hrm : mkRM n nodes gpn none = some rm) (i : Nat) (r : RS) (hr : rm.rsets[i]? = some r) :
    (∀ x s, (x, s) ∈ localSlots split rm.rsetsPerNode i → s = r.slot) ∧
    (r.gpu = true → ∀ x l k, k ∈ gpuIds (gpusPerRset gpn rm.rsetsPerNode) (slotsOn split rm.rsetsPerNode [i] x) l →
      k < gpn) := by
  have hrs : rm.rsets = groupList split gpn none ∧ rm.rsetsPerNode = rsetsOnNode n nodes.length := by
    unfold mkRM at hrm; rw [hs] at hrm; simp at hrm; rw [← hrm]; exact ⟨rfl, rfl⟩
  obtain ⟨hrs, hrpn⟩ := hrs
  rw [hrs] at hr
  rw [hrpn]
  obtain ⟨hn, hne⟩ := splitList_pos hs
  have hpos : 0 < nodes.length := List.length_pos_iff.mpr hne
  -- the slot computed by the worker is the slot of the table, and it is below the number of sets per node
  have key : (∀ x s, (x, s) ∈ localSlots split (rsetsOnNode n nodes.length) i → s = r.slot) ∧
      r.slot < rsetsOnNode n nodes.length ∧ r.gpu = decide (r.slot < gpn) := by
    by_cases hle : nodes.length ≤ n
    · have hev : n % nodes.length = 0 := by rcases heven with h | h; exact h; omega
      rw [splitList_sub hn hne hle] at hs
      injection hs with hs; injection hs with h1 h2
      subst h1
      obtain ⟨p, a, x', hp1, hp2, hp3, rfl⟩ := rsets_get_sub hnd hne hle gpn hr
      have hrep : repeats nodes.length n p = rsetsOnNode n nodes.length := by
        unfold repeats rsetsOnNode; rw [hev]; simp
      have hcut : cut (n / nodes.length) (n % nodes.length) p = p * rsetsOnNode n nodes.length := by
        unfold cut rsetsOnNode; rw [hev]; simp
      rw [hrep] at hp2
      refine ⟨?_, hp2, rfl⟩
      intro x s hx
      unfold localSlots at hx
      split at hx
      · cases hx
      · rename_i nd hnd'
        obtain ⟨q, b, y, hq1, hq2, hq3, rfl⟩ := split_get_sub i nd hnd'
        simp at hx
        rw [hx.2, hp3, hcut, Nat.mul_comm, Nat.mul_add_mod]
        exact Nat.mod_eq_of_lt hp2
    · have hlt : n < nodes.length := by omega
      rw [splitList_super hn hne hlt] at hs
      injection hs with hs; injection hs with h1 h2
      subst h1
      have hone : rsetsOnNode n nodes.length = 1 := by
        unfold rsetsOnNode; rw [Nat.mod_eq_of_lt hlt, if_pos hn, Nat.div_eq_of_lt hlt]
      rw [rsets_get_super hnd hn hlt gpn hr, hone]
      refine ⟨?_, by simp, rfl⟩
      intro x s hx
      unfold localSlots at hx
      split at hx
      · cases hx
      · split at hx
        · rw [List.mem_map] at hx
          obtain ⟨_, _, e⟩ := hx
          cases e; rfl
        · split at hx
          · cases hx
          · simp at hx
            rw [hx.2]; exact Nat.mod_one i
  obtain ⟨k1, k2, k3⟩ := key
  refine ⟨k1, ?_⟩
  intro hgpu x l k hk
  rw [k3] at hgpu
  simp at hgpu
  obtain ⟨s, hs1, hs2, hs3⟩ := gpuIds_div hk
  obtain ⟨j, hj, hsj⟩ := slotsOn_mem.mp hs1
  simp at hj
  subst hj
  have hsl := k1 x s hsj
  have hlt : s < min gpn (rsetsOnNode n nodes.length) := by omega
  have hm : min gpn (rsetsOnNode n nodes.length) ≠ 0 := by omega
  unfold gpusPerRset at hs3
  rw [if_neg hm] at hs3
  have h4 : (s + 1) * (gpn / min gpn (rsetsOnNode n nodes.length)) ≤
      min gpn (rsetsOnNode n nodes.length) * (gpn / min gpn (rsetsOnNode n nodes.length)) :=
    Nat.mul_le_mul_right _ hlt
  have h5 := Nat.mul_div_le gpn (min gpn (rsetsOnNode n nodes.length))
  omega

-- an even layout: 4 sets on 2 nodes with 4 GPUs each; set 3 has GPUs 2 and 3 of node "b"
example : gpuIds (gpusPerRset 4 2) (slotsOn [["a"], ["a"], ["b"], ["b"]] 2 [3] "b") none = [2, 3] := by decide

/-- Counterexample to the full statement: 7 resource sets on 3 nodes with 2 GPUs each.  Set 5 is the first GPU set of
the third node (slot 0 of the table), but the worker computes slot 2, which stands for the nonexistent GPU 2. -/
theorem C29_uneven_witness :
    ∃ split loc rm r, splitList 7 ["a", "b", "c"] = some (split, loc) ∧ mkRM 7 ["a", "b", "c"] 2 none = some rm ∧
      rm.rsets[5]? = some r ∧ r.slot = 0 ∧ r.gpu = true ∧
      slotsOn split rm.rsetsPerNode [5] "c" = [2] ∧
      gpuIds (gpusPerRset 2 rm.rsetsPerNode) (slotsOn split rm.rsetsPerNode [5] "c") none = [2] := by
  exact ⟨[["a"], ["a"], ["a"], ["b"], ["b"], ["c"], ["c"]], [3, 3, 3, 2, 2, 2, 2],
    _, ⟨3, 0, true⟩, by decide, rfl, by decide, by decide, by decide, by decide, by decide⟩

/-! ## C21: the counters of free resource sets -/

inductive RMOp where
  | assign (team : List Nat) (w : Nat)
  | free (w : Nat)
  | freeAll

/-- One operation; an operation that raises leaves the manager unchanged (the IndexError occurs before any
update). -/
def rmStep (rm : RM) : RMOp → RM
  | .assign team w => (assignRsets rm team w).getD rm
  | .free w => freeRsets rm w
  | .freeAll => freeAll rm

def rmRun (rm : RM) (ops : List RMOp) : RM := ops.foldl rmStep rm

/-- Full statement: after every sequence of assignments and releases, with any teams, the three counters are the
numbers of unassigned sets.  Proved for teams without repeated members (all teams of the scheduler are such, see
C22); missing: teams that list a set twice, for which it is false (`C21_duplicate_witness`).  Teams may overlap
earlier teams and may name sets of other workers. -/
theorem C21_counters_partial {α} [DecidableEq α] (n : Nat) (nodes : List α) (gpn : Nat) (gpg : Option Nat) (rm : RM)
    (hrm : mkRM n nodes gpn gpg = some rm) (ops : List RMOp)
    (hops : ∀ team w, RMOp.assign team w ∈ ops → team.Nodup) :
    (rmRun rm ops).rsetsFree
      = ((rmRun rm ops).rsets.zip (rmRun rm ops).assigned).countP (fun p => p.2.isNone) ∧
    (rmRun rm ops).gpuFree
      = ((rmRun rm ops).rsets.zip (rmRun rm ops).assigned).countP (fun p => p.2.isNone && p.1.gpu) ∧
    (rmRun rm ops).nongpuFree
      = ((rmRun rm ops).rsets.zip (rmRun rm ops).assigned).countP (fun p => p.2.isNone && !p.1.gpu) ∧
    (rmRun rm ops).assigned.length = (rmRun rm ops).rsets.length := by
  have hinv : ∀ (ops : List RMOp) (rm : RM), Exact rm → (∀ team w, RMOp.assign team w ∈ ops → team.Nodup) →
      Exact (rmRun rm ops) := by
    intro ops
    induction ops with
    | nil => intro rm h _; exact h
    | cons op rest ih =>
      intro rm h hops
      show Exact (rmRun (rmStep rm op) rest)
      apply ih _ _ (fun t w ht => hops t w (List.mem_cons_of_mem _ ht))
      cases op with
      | assign team w =>
        show Exact ((assignRsets rm team w).getD rm)
        cases ha : assignRsets rm team w with
        | none => exact h
        | some rm' => exact assign_exact h (hops team w List.mem_cons_self) ha
      | free w => exact free_exact h w
      | freeAll => exact freeAll_exact h
  have he := hinv ops rm (mkRM_exact hrm) hops
  refine ⟨?_, he.gpu, he.nongpu, he.len⟩
  have := he.all
  unfold numFree at this
  simpa using this

example : (mkRM 4 ["a", "b"] 1 none).map (fun rm =>
    let s := rmRun rm [.assign [0, 1] 1, .assign [1, 2] 2, .free 1]
    (s.assigned, s.rsetsFree, s.gpuFree, s.nongpuFree)) = some ([none, none, some 2, none], 3, 1, 2) := by decide

/-- Counterexample to the full statement: assigning the team [0, 0] takes one set but two off the counter. -/
theorem C21_duplicate_witness :
    ∃ rm, mkRM 2 ["a"] 0 none = some rm ∧ (rmStep rm (.assign [0, 0] 1)).assigned = [some 1, none] ∧
      (rmStep rm (.assign [0, 0] 1)).rsetsFree = 0 := by
  exact ⟨_, rfl, by decide, by decide⟩

end Verif.Res
