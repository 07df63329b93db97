import Verif.Mpi.Model
import Verif.Resources.Props
import Mathlib.Data.List.Perm.Subperm
/-! Helper lemmas for the MPI layouts: the slots of teams on a node, and the values filled in. -/
namespace Verif.Mpi
open Verif.Res

theorem given_some {x : Option Int} {a : Int} : given x = some a ↔ x = some a ∧ a ≠ 0 := by
  cases x with
  | none => simp [given]
  | some b =>
    simp only [given]
    split
    · rename_i h; subst h
      constructor
      · intro h; cases h
      · rintro ⟨h, h'⟩; cases h; exact absurd rfl h'
    · rename_i h
      constructor
      · intro e; cases e; exact ⟨rfl, h⟩
      · rintro ⟨e, _⟩; exact e

theorem given_none {x : Option Int} : given x = none ↔ x = none ∨ x = some 0 := by
  cases x with
  | none => simp [given]
  | some b => simp [given]

theorem checked_ok {a b c : Int} {l : Layout} (h : checked a b c = .ok l) : l = ⟨a, b, c⟩ ∧ a = b * c := by
  unfold checked at h
  split at h
  · cases h; exact ⟨rfl, by assumption⟩
  · cases h

theorem partition_ok {np nn ppn : Option Int} {l : Layout} (h : partition np nn ppn = .ok l) :
    l.procs = l.nodes * l.ppn ∧ (∀ a, given np = some a → l.procs = a) ∧ (∀ b, given nn = some b → l.nodes = b) ∧
    (∀ c, given ppn = some c → l.ppn = c) := by
  unfold partition at h
  split at h
  · rename_i b c h1 h2 h3
    obtain ⟨rfl, he⟩ := checked_ok h
    exact ⟨rfl, by intro a ha; simp [h1] at ha, by intro a ha; rw [h2] at ha; cases ha; rfl, by intro a ha; rw [h3] at ha; cases ha; rfl⟩
  · cases h
  · rename_i a h1 h2
    obtain ⟨rfl, he⟩ := checked_ok h
    refine ⟨he, by intro a ha; rw [h1] at ha; cases ha; rfl, by intro a ha; simp [h2] at ha, ?_⟩
    intro c hc; simp [hc]
  · rename_i a b h1 h2 h3
    obtain ⟨rfl, he⟩ := checked_ok h
    exact ⟨he, by intro a ha; rw [h1] at ha; cases ha; rfl, by intro a ha; rw [h2] at ha; cases ha; rfl, by intro c hc; simp [h3] at hc⟩
  · rename_i a b c h1 h2 h3
    obtain ⟨rfl, he⟩ := checked_ok h
    exact ⟨he, by intro a ha; rw [h1] at ha; cases ha; rfl, by intro a ha; rw [h2] at ha; cases ha; rfl, by intro a ha; rw [h3] at ha; cases ha; rfl⟩

theorem bounds_ok {w : Avail} {per : Nat} {l l' : Layout} (h : bounds w per l = .ok l') :
    l' = l ∧ l.nodes ≤ w.nodes ∧ (w.enforce = true → l.ppn ≤ w.cores ∧ l.ppn ≤ per ∧ l.procs ≤ w.cores * w.nodes) := by
  unfold bounds at h
  split at h
  · cases h
  split at h
  · cases h
  split at h
  · cases h
  split at h
  · cases h
  · rename_i h1 h2 h3 h4
    cases h
    refine ⟨rfl, Decidable.not_not.mp h1, ?_⟩
    intro he
    simp only [he, true_and, Decidable.not_not] at h2 h3 h4
    exact ⟨h2, h3, h4⟩

/-- Values supplied survive `fill`; what is filled in. -/
theorem fill_ok {w : Avail} {per : Nat} {np nn ppn np' nn' ppn' : Option Int} (h : fill w per np nn ppn = .ok (np', nn', ppn')) :
    np' = np ∧ (∀ b, given nn = some b → given nn' = some b) ∧ (∀ c, given ppn = some c → given ppn' = some c) ∧
    (given np = none → given ppn = none → per > 0 ∧ ppn' = some (per : Int)) := by
  unfold fill at h
  split at h
  · rename_i h1 h3
    split at h
    · rename_i hp
      cases h
      refine ⟨rfl, ?_, by simp [h3], fun _ _ => ⟨hp, rfl⟩⟩
      intro b hb
      have := (given_some.mp hb).2
      rw [hb]; exact given_some.mpr ⟨rfl, this⟩
    · cases h
  · rename_i a h1 h2 h3
    cases h
    exact ⟨rfl, by simp [h2], by simp [h3], by simp [h1]⟩
  · rename_i c h1 h2 h3
    cases h
    exact ⟨rfl, by simp [h2], fun c hc => hc, by simp [h3]⟩
  · rename_i h1 h2 h3
    cases h
    refine ⟨rfl, fun b hb => hb, fun c hc => hc, ?_⟩
    intro hn hp
    exact absurd hp (by intro hp; exact h1 hn hp)

theorem getResources_ok {w : Avail} {np nn ppn : Option Int} {l : Layout} (h : getResources w np nn ppn = .ok l) :
    ∃ s, w.nodes ≠ 0 ∧ w.slotCount = some s ∧ ∃ np' nn' ppn', fill w (w.coresPer s) np nn ppn = .ok (np', nn', ppn') ∧
      partition np' nn' ppn' = .ok l ∧ bounds w (w.coresPer s) l = .ok l := by
  unfold getResources at h
  split at h
  · cases h
  · rename_i h0
    split at h
    · cases h
    · rename_i s hs
      split at h
      · cases h
      · rename_i np' nn' ppn' hf
        split at h
        · cases h
        · rename_i l' hp
          have := (bounds_ok h).1
          subst this
          exact ⟨s, h0, hs, np', nn', ppn', hf, hp, h⟩

/-! ### Slots -/

theorem mem_firsts {α} [DecidableEq α] {x : α} : ∀ {l : List α}, x ∈ firsts l ↔ x ∈ l := by
  intro l
  induction l with
  | nil => simp [firsts]
  | cons y ys ih =>
    simp only [firsts, List.mem_cons, List.mem_filter, ih]
    by_cases h : x = y <;> simp [h]

theorem firsts_nodup {α} [DecidableEq α] : ∀ l : List α, (firsts l).Nodup := by
  intro l
  induction l with
  | nil => simp [firsts]
  | cons y ys ih =>
    simp only [firsts, List.nodup_cons]
    exact ⟨by simp, ih.filter _⟩

theorem mem_localNodes {α} [DecidableEq α] {split : List (List α)} {team : List Nat} {x : α} :
    x ∈ localNodes split team ↔ ∃ i ∈ team, ∃ nd, split[i]? = some nd ∧ x ∈ nd := by
  simp only [localNodes, mem_firsts, List.mem_flatMap]
  constructor
  · rintro ⟨i, hi, hx⟩
    cases h : split[i]? with
    | none => rw [h] at hx; simp at hx
    | some nd => rw [h] at hx; exact ⟨i, hi, nd, h, by simpa using hx⟩
  · rintro ⟨i, hi, nd, h, hx⟩
    exact ⟨i, hi, by rw [h]; simpa using hx⟩

/-- Does set `i` use node `x`? -/
def uses {α} [DecidableEq α] (split : List (List α)) (x : α) (i : Nat) : Bool := decide (x ∈ (split[i]?).getD [])

theorem localSlots_count {α} [DecidableEq α] {split : List (List α)} (rpn : Nat) (x : α) (i : Nat)
    (hnd : ∀ nd ∈ split, nd.Nodup) :
    ((localSlots split rpn i).filterMap (fun p => if p.1 = x then some p.2 else none)).length = if uses split x i then 1 else 0 := by
  unfold localSlots uses
  cases h : split[i]? with
  | none => simp
  | some nd =>
    have hn := hnd nd (List.mem_of_getElem? h)
    simp only [Option.getD_some, decide_eq_true_eq]
    split
    · rename_i hl
      clear hl h
      induction nd with
      | nil => simp
      | cons y ys ih =>
        rw [List.nodup_cons] at hn
        rw [List.map_cons, List.filterMap_cons]
        have ih := ih hn.2
        by_cases hy : y = x
        · subst hy
          rw [if_neg hn.1] at ih
          simpa using ih
        · simp only [hy, if_false, ih, List.mem_cons]
          by_cases hx : x ∈ ys
          · simp [hx]
          · have : ¬ x = y := fun e => hy e.symm
            simp [hx, this]
    · rename_i hl
      cases nd with
      | nil => simp
      | cons y ys =>
        cases ys with
        | cons z zs => simp at hl
        | nil =>
          by_cases hy : y = x
          · subst hy; simp
          · have : ¬ x = y := fun e => hy e.symm
            simp [hy, this]

theorem slotsOn_length {α} [DecidableEq α] {split : List (List α)} (rpn : Nat) (team : List Nat) (x : α)
    (hnd : ∀ nd ∈ split, nd.Nodup) : (slotsOn split rpn team x).length = (team.filter (uses split x)).length := by
  unfold slotsOn
  induction team with
  | nil => simp
  | cons i is ih =>
    rw [List.flatMap_cons, List.filterMap_append, List.length_append, ih, localSlots_count rpn x i hnd, List.filter_cons]
    split <;> simp <;> omega

theorem length_le_of_nodup_subset {l l' : List Nat} (h : l.Nodup) (hs : l ⊆ l') : l.length ≤ l'.length :=
  (h.subperm hs).length_le

theorem slotCount_some {α} [DecidableEq α] {split : List (List α)} {rpn : Nat} {team : List Nat} {s : Nat}
    (h : slotCount split rpn team = some s) {x : α} (hx : x ∈ localNodes split team) : (slotsOn split rpn team x).length = s := by
  unfold slotCount at h
  split at h
  · cases h
  · rename_i y ys he
    split at h
    · rename_i ha
      cases h
      rw [he] at hx
      rcases List.mem_cons.mp hx with rfl | hx
      · rfl
      · simpa using List.all_eq_true.mp ha x hx
    · cases h

theorem foldl_max_ge (f : Nat → Nat) : ∀ (l : List Nat) (m : Nat), m ≤ l.foldl (fun m i => max m (f i)) m ∧
    ∀ i ∈ l, f i ≤ l.foldl (fun m i => max m (f i)) m := by
  intro l
  induction l with
  | nil => intro m; simp
  | cons j js ih =>
    intro m
    obtain ⟨h1, h2⟩ := ih (max m (f j))
    refine ⟨Nat.le_trans (Nat.le_max_left _ _) h1, ?_⟩
    intro i hi
    rcases List.mem_cons.mp hi with rfl | hi
    · exact Nat.le_trans (Nat.le_max_right _ _) h1
    · exact h2 i hi

theorem maxRsets_ge {loc : List Nat} {team : List Nat} {i k : Nat} (hi : i ∈ team) (hk : loc[i]? = some k) :
    k ≤ maxRsets loc team := by
  have := (foldl_max_ge (fun i => (loc[i]?).getD 0) team 0).2 i hi
  simpa [maxRsets, hk] using this

/-- On the node of a set there are exactly as many sets as `local_rsets_list` says. -/
theorem range_filter_count {α} [DecidableEq α] (x : α) : ∀ l : List (List α),
    ((List.range l.length).filter (uses l x)).length = l.countP (fun nd => decide (x ∈ nd)) := by
  intro l
  induction l with
  | nil => simp
  | cons y ys ih =>
    rw [List.length_cons, List.range_succ_eq_map, List.filter_cons, List.countP_cons, List.filter_map]
    have e : (uses (y :: ys) x ∘ Nat.succ) = uses ys x := by funext i; simp [uses]
    have e0 : uses (y :: ys) x 0 = decide (x ∈ y) := by simp [uses]
    rw [e, e0]
    split <;> simp [ih]

theorem uses_iff {α} [DecidableEq α] {split : List (List α)} {x : α} {i : Nat} :
    uses split x i = true ↔ ∃ nd, split[i]? = some nd ∧ x ∈ nd := by
  unfold uses
  cases split[i]? <;> simp

theorem expand_loc {α} {n : Nat} {nodes : List α} (i k : Nat) (h : (expandList nodes.length n nodes).2[i]? = some k) :
    ∃ p j, j < repeats nodes.length n p ∧ i = cut (n / nodes.length) (n % nodes.length) p + j ∧ k = repeats nodes.length n p := by
  have he' : ((nodes.zipIdx 0).flatMap (fun p => (List.range (repeats nodes.length n p.2)).map
      (fun j => (fun (_ : α) (q _ : Nat) => repeats nodes.length n q) p.1 p.2 j)))[i]? = some k := by
    simp only [← replicate_eq_map]
    exact h
  obtain ⟨p, j, x, h1, h2, h3, h4⟩ := flatMap_get (fun (_ : α) (q _ : Nat) => repeats nodes.length n q) (repeats nodes.length n)
    (cut (n / nodes.length) (n % nodes.length)) (cut_repeats _ _) nodes 0 i k he'
  refine ⟨p, j, by simpa using h2, ?_, by simpa using h4⟩
  simp only [Nat.zero_add] at h3
  rw [← h3]
  simp [cut]

theorem expand_lengths {α} (nn n : Nat) (nodes : List α) : (expandList nn n nodes).1.length = (expandList nn n nodes).2.length := by
  simp [expandList, List.length_flatMap]

theorem uses_count {α} [DecidableEq α] {n : Nat} {nodes : List α} (hnd : nodes.Nodup) {split : List (List α)} {loc : List Nat}
    (hs : splitList n nodes = some (split, loc)) : (∀ nd ∈ split, nd.Nodup) ∧
    ∀ (i : Nat) (x : α), uses split x i = true → ∃ k, loc[i]? = some k ∧ ((List.range split.length).filter (uses split x)).length ≤ k := by
  obtain ⟨hn, hne⟩ := splitList_pos hs
  by_cases hle : nodes.length ≤ n
  · rw [splitList_sub hn hne hle] at hs
    injection hs with hs; injection hs with h1 h2
    subst h1; subst h2
    refine ⟨?_, ?_⟩
    · intro nd hm
      obtain ⟨a, _, rfl⟩ := List.mem_map.mp hm
      simp
    · intro i x hu
      obtain ⟨nd, hi, hx⟩ := uses_iff.mp hu
      obtain ⟨p, j, y, hp1, hp2, hp3, rfl⟩ := split_get_sub i nd hi
      simp only [List.mem_singleton] at hx
      subst hx
      have hlt : i < (expandList nodes.length n nodes).2.length := by
        rw [← expand_lengths, ← List.length_map (as := (expandList nodes.length n nodes).1) (fun x => [x])]
        exact (List.getElem?_eq_some_iff.mp hi).1
      refine ⟨_, List.getElem?_eq_getElem hlt, ?_⟩
      obtain ⟨q, j', hq1, hq2, hq3⟩ := expand_loc i _ (List.getElem?_eq_getElem hlt)
      have hpq : p = q := (cut_unique hp2 hq1 (by omega)).1
      rw [range_filter_count, hq3, ← hpq, ← expandList_count hnd hp1, List.countP_map, List.count_eq_countP]
      apply Nat.le_of_eq
      apply List.countP_congr
      intro a _
      simp only [Function.comp, List.mem_singleton, decide_eq_true_eq, beq_iff_eq]
      exact eq_comm
  · have hlt : n < nodes.length := by omega
    rw [splitList_super hn hne hlt] at hs
    injection hs with hs; injection hs with h1 h2
    subst h1; subst h2
    have hfl : (bestSplit nodes n).flatten.Nodup := by rw [bestSplit_flatten nodes hn]; exact hnd
    refine ⟨?_, ?_⟩
    · intro nd hm
      exact (List.sublist_flatten_of_mem hm).nodup hfl
    · intro i x hu
      obtain ⟨nd, hi, hx⟩ := uses_iff.mp hu
      have hin : i < n := by
        have := (List.getElem?_eq_some_iff.mp hi).1
        rwa [bestSplit_length] at this
      refine ⟨1, by simp [hin], ?_⟩
      have hsub : ((List.range (bestSplit nodes n).length).filter (uses (bestSplit nodes n) x)) ⊆ [i] := by
        intro k hk
        obtain ⟨nd', hk', hx'⟩ := uses_iff.mp (List.mem_filter.mp hk).2
        simp [flatten_disjoint hfl hk' hi hx' hx]
      simpa using length_le_of_nodup_subset (List.nodup_range.filter _) hsub

end Verif.Mpi
