import Verif.Resources.PartLemmas
/-! Helper lemmas about the table of resource sets built by `get_group_list`. -/
namespace Verif.Res

/-- Table of resource sets for nodes (or GPU groups) holding `sizes` sets, groups numbered from `g`. -/
def blocks (gpn : Nat) : Nat → List Nat → List RS
  | _, [] => []
  | g, s :: ss => (List.range s).map (fun j => (⟨g, j, decide (j < gpn)⟩ : RS)) ++ blocks gpn (g + 1) ss

theorem range_map_cons {β} (f : Nat → β) (c : Nat) :
    (List.range (c + 1)).map f = f 0 :: (List.range' 1 c).map f := by
  rw [List.range_eq_range', List.range'_succ]; rfl

theorem groupLoop_blocks {α} [DecidableEq α] (gpn : Nat) (gpg : Option Nat) (B : Nat) :
    ∀ (l : List (List α)) (node : List α) (g s : Nat), (∀ x, l.count x ≤ B) →
      ∃ c sizes, groupLoop gpn gpg l node g s
          = (List.range' s c).map (fun j => (⟨g, j, decide (j < gpn)⟩ : RS)) ++ blocks gpn (g + 1) sizes
        ∧ c ≤ l.count node ∧ (∀ k ∈ sizes, 0 < k ∧ k ≤ B) ∧
        (∀ y ys, l = y :: ys → y = node → some s ≠ gpg → 0 < c) := by
  intro l
  induction l with
  | nil =>
    intro node g s _
    exact ⟨0, [], by simp [groupLoop, blocks], by simp, by simp, by simp⟩
  | cons x xs ih =>
    intro node g s hB
    have hB' : ∀ y, xs.count y ≤ B := fun y =>
      Nat.le_trans (List.count_le_count_cons) (hB y)
    unfold groupLoop
    by_cases hc : x ≠ node ∨ some s = gpg
    · obtain ⟨c, sizes, h1, h2, h3, _⟩ := ih x (g + 1) 1 hB'
      refine ⟨0, (c + 1) :: sizes, ?_, by simp, ?_, ?_⟩
      · rw [if_pos hc, h1]
        simp only [List.range'_zero, List.map_nil, List.nil_append, blocks]
        rw [range_map_cons]
        rfl
      · intro k hk
        rcases List.mem_cons.mp hk with rfl | hk
        · refine ⟨Nat.succ_pos _, ?_⟩
          have h4 := hB x
          rw [List.count_cons_self] at h4
          omega
        · exact h3 k hk
      · intro y ys hy hyn hs
        cases hy
        rcases hc with hc | hc
        · exact absurd hyn hc
        · exact absurd hc hs
    · have hx : x = node := by
        apply Decidable.byContradiction; intro h; exact hc (Or.inl h)
      subst hx
      obtain ⟨c, sizes, h1, h2, h3, _⟩ := ih x g (s + 1) hB'
      refine ⟨c + 1, sizes, ?_, ?_, h3, ?_⟩
      · rw [if_neg hc, h1, List.range'_succ]
        rfl
      · rw [List.count_cons_self]; omega
      · intros; omega

/-- Every table built by `get_group_list` is a sequence of non-empty groups numbered from 1, each with slots
0, 1, 2, …, at most `B` sets per group if no node list occurs more than `B` times. -/
theorem groupList_blocks {α} [DecidableEq α] (gpn : Nat) (gpg : Option Nat) (hg : gpg ≠ some 0) (B : Nat)
    (l : List (List α)) (hl : l ≠ []) (hB : ∀ x, l.count x ≤ B) :
    ∃ sizes, sizes ≠ [] ∧ groupList l gpn gpg = blocks gpn 1 sizes ∧ (∀ k ∈ sizes, 0 < k ∧ k ≤ B) := by
  cases l with
  | nil => exact absurd rfl hl
  | cons x xs =>
    obtain ⟨c, sizes, h1, h2, h3, h4⟩ := groupLoop_blocks gpn gpg B (x :: xs) x 1 0 hB
    refine ⟨c :: sizes, by simp, ?_, ?_⟩
    · show groupLoop gpn gpg (x :: xs) x 1 0 = _
      rw [h1, blocks, List.range_eq_range']
    · intro k hk
      rcases List.mem_cons.mp hk with rfl | hk
      · exact ⟨h4 x xs rfl rfl (fun h => hg h.symm), Nat.le_trans h2 (hB x)⟩
      · exact h3 k hk

theorem groupLoop_length {α} [DecidableEq α] (gpn : Nat) (gpg : Option Nat) :
    ∀ (l : List (List α)) (node : List α) (g s : Nat), (groupLoop gpn gpg l node g s).length = l.length := by
  intro l
  induction l with
  | nil => intros; rfl
  | cons x xs ih => intro node g s; unfold groupLoop; split <;> simp [ih]

theorem groupList_length {α} [DecidableEq α] (gpn : Nat) (gpg : Option Nat) (l : List (List α)) :
    (groupList l gpn gpg).length = l.length := by
  cases l with
  | nil => rfl
  | cons x xs => exact groupLoop_length _ _ _ _ _ _

/-! Splits -/

theorem splitList_sub {α} {n : Nat} {nodes : List α} (hn : 0 < n) (hne : nodes ≠ [])
    (h : nodes.length ≤ n) :
    splitList n nodes = some ((expandList nodes.length n nodes).1.map (fun x => [x]),
      (expandList nodes.length n nodes).2) := by
  unfold splitList
  rw [if_neg (by intro h; rcases h with h | h; omega; exact hne h), if_pos h]
  have hlen := expandList_length n nodes hne
  have hne' : (expandList nodes.length n nodes).1 ≠ [] := by
    intro e; rw [e] at hlen; simp at hlen; omega
  have := bestSplit_singletons _ hne'
  rw [hlen] at this
  simp only [this]

theorem splitList_super {α} {n : Nat} {nodes : List α} (hn : 0 < n) (hne : nodes ≠ [])
    (h : n < nodes.length) :
    splitList n nodes = some (bestSplit nodes n, List.replicate n 1) := by
  unfold splitList
  rw [if_neg (by intro h; rcases h with h | h; omega; exact hne h), if_neg (by omega)]

theorem nodup_of_flatten {α} : ∀ (l : List (List α)), (∀ p ∈ l, p ≠ []) → l.flatten.Nodup → l.Nodup
  | [], _, _ => List.nodup_nil
  | p :: ps, h, hnd => by
    rw [List.flatten_cons, List.nodup_append] at hnd
    rw [List.nodup_cons]
    refine ⟨?_, nodup_of_flatten ps (fun q hq => h q (List.mem_cons_of_mem _ hq)) hnd.2.1⟩
    intro hp
    have hne := h p List.mem_cons_self
    obtain ⟨a, ha⟩ := List.exists_mem_of_ne_nil p hne
    exact hnd.2.2 a ha a (List.mem_flatten.mpr ⟨p, hp, ha⟩) rfl

theorem bestSplit_nonempty {α} {n : Nat} {nodes : List α} (hn : 0 < n) (h : n ≤ nodes.length) :
    ∀ p ∈ bestSplit nodes n, p ≠ [] := by
  intro p hp e
  have h1 := bestSplit_part_mem nodes hn hp
  have h2 : 0 < nodes.length / n := Nat.div_pos h hn
  rw [e] at h1
  simp at h1
  omega

theorem bestSplit_nodup {α} {n : Nat} {nodes : List α} (hn : 0 < n) (h : n ≤ nodes.length) (hnd : nodes.Nodup) :
    (bestSplit nodes n).Nodup := by
  apply nodup_of_flatten _ (bestSplit_nonempty hn h)
  rw [bestSplit_flatten nodes hn]; exact hnd

theorem repeats_le (nn n i : Nat) : repeats nn n i ≤ rsetsOnNode n nn := by
  unfold repeats rsetsOnNode; split <;> split <;> omega

theorem count_map_inj {α β} [BEq α] [LawfulBEq α] [BEq β] [LawfulBEq β] (f : α → β) (hf : ∀ a b, f a = f b → a = b) (l : List α) (x : α) :
    (l.map f).count (f x) = l.count x := by
  induction l with
  | nil => rfl
  | cons y ys ih =>
    rw [List.map_cons, List.count_cons, List.count_cons, ih]
    by_cases h : y = x
    · subst h; simp
    · have h2 : f y ≠ f x := fun e => h (hf _ _ e)
      rw [if_neg (by simpa using h2), if_neg (by simpa using h)]

theorem split_count {α} [DecidableEq α] {n : Nat} {nodes : List α} (hnd : nodes.Nodup) {split : List (List α)} {loc : List Nat}
    (h : splitList n nodes = some (split, loc)) :
    0 < n ∧ nodes ≠ [] ∧ split.length = n ∧ ∀ x, split.count x ≤ rsetsOnNode n nodes.length := by
  have h0 : ¬ (n = 0 ∨ nodes = []) := by
    intro e; unfold splitList at h; rw [if_pos e] at h; cases h
  have hn : 0 < n := by apply Nat.pos_of_ne_zero; intro e; exact h0 (Or.inl e)
  have hne : nodes ≠ [] := fun e => h0 (Or.inr e)
  refine ⟨hn, hne, ?_⟩
  by_cases hle : nodes.length ≤ n
  · rw [splitList_sub hn hne hle] at h
    injection h with h; injection h with h1 h2
    subst h1
    refine ⟨by rw [List.length_map, expandList_length n nodes hne], ?_⟩
    intro x
    by_cases hx : ∃ a, x = [a]
    · obtain ⟨a, rfl⟩ := hx
      rw [count_map_inj (fun y => [y]) (by intro a b h; simpa using h)]
      by_cases ha : a ∈ nodes
      · obtain ⟨i, hi⟩ := List.mem_iff_getElem?.mp ha
        rw [expandList_count hnd hi]
        exact repeats_le _ _ _
      · rw [List.count_eq_zero.mpr (fun hm => ha (expandList_mem hm))]
        exact Nat.zero_le _
    · rw [List.count_eq_zero.mpr]
      · exact Nat.zero_le _
      · intro hm
        rw [List.mem_map] at hm
        obtain ⟨a, _, rfl⟩ := hm
        exact hx ⟨a, rfl⟩
  · have hlt : n < nodes.length := by omega
    rw [splitList_super hn hne hlt] at h
    injection h with h; injection h with h1 h2
    subst h1
    refine ⟨bestSplit_length _ _, ?_⟩
    intro x
    have h1 := List.nodup_iff_count.mp (bestSplit_nodup hn (Nat.le_of_lt hlt) hnd) x
    refine Nat.le_trans h1 ?_
    unfold rsetsOnNode
    rw [Nat.mod_eq_of_lt hlt, if_pos hn]
    exact Nat.le_add_left _ _

end Verif.Res
