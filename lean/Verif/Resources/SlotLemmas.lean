import Verif.Resources.LayoutLemmas
/-! Helper lemmas about slots and GPU numbers. -/
namespace Verif.Res

theorem flatMap_get {α β} (G : α → Nat → Nat → β) (f c : Nat → Nat) (hc : ∀ i, c (i + 1) = c i + f i) :
    ∀ (nodes : List α) (s i : Nat) (y : β),
      ((nodes.zipIdx s).flatMap (fun p => (List.range (f p.2)).map (fun j => G p.1 p.2 j)))[i]? = some y →
      ∃ p j x, nodes[p]? = some x ∧ j < f (s + p) ∧ c s + i = c (s + p) + j ∧ y = G x (s + p) j := by
  intro nodes
  induction nodes with
  | nil => intro s i y h; simp at h
  | cons x xs ih =>
    intro s i y h
    rw [List.zipIdx_cons, List.flatMap_cons] at h
    by_cases hi : i < f s
    · rw [List.getElem?_append_left (by simpa using hi)] at h
      rw [List.getElem?_map, List.getElem?_range (by simpa using hi)] at h
      simp at h
      exact ⟨0, i, x, by simp, by simpa using hi, by simp, by simpa using h.symm⟩
    · rw [List.getElem?_append_right (by simp; omega)] at h
      obtain ⟨p, j, z, h1, h2, h3, h4⟩ := ih (s + 1) _ y h
      refine ⟨p + 1, j, z, by simpa using h1, ?_, ?_, ?_⟩
      · rw [show s + (p + 1) = s + 1 + p by omega]; exact h2
      · rw [show s + (p + 1) = s + 1 + p by omega]
        simp at h3
        have := hc s
        omega
      · rw [show s + (p + 1) = s + 1 + p by omega]; exact h4

theorem replicate_eq_map {α} (n : Nat) (x : α) : List.replicate n x = (List.range n).map (fun _ => x) := by
  apply List.ext_getElem?
  intro i
  by_cases h : i < n
  · simp [h]
  · simp [h]

theorem cut_repeats (nn n i : Nat) : cut (n / nn) (n % nn) (i + 1) = cut (n / nn) (n % nn) i + repeats nn n i := by
  rw [cut_succ]; rfl

theorem split_get_sub {α} {n : Nat} {nodes : List α} (i : Nat) (nd : List α)
    (h : ((expandList nodes.length n nodes).1.map (fun x => [x]))[i]? = some nd) :
    ∃ p j x, nodes[p]? = some x ∧ j < repeats nodes.length n p ∧
      i = cut (n / nodes.length) (n % nodes.length) p + j ∧ nd = [x] := by
  rw [List.getElem?_map] at h
  cases he : (expandList nodes.length n nodes).1[i]? with
  | none => rw [he] at h; cases h
  | some y =>
    rw [he] at h
    simp at h
    have he' : ((nodes.zipIdx 0).flatMap (fun p => (List.range (repeats nodes.length n p.2)).map
        (fun j => (fun (x : α) (_ _ : Nat) => x) p.1 p.2 j)))[i]? = some y := by
      simp only [← replicate_eq_map]
      exact he
    obtain ⟨p, j, x, h1, h2, h3, h4⟩ := flatMap_get (fun x _ _ => x) (repeats nodes.length n)
      (cut (n / nodes.length) (n % nodes.length)) (cut_repeats _ _) nodes 0 i y he'
    refine ⟨p, j, x, h1, by simpa using h2, ?_, ?_⟩
    · simp only [Nat.zero_add] at h3
      rw [← h3]
      simp [cut]
    · rw [← h, h4]

theorem get_inj_of_nodup {α} {l : List α} (hnd : l.Nodup) {i j : Nat} {x : α} (hi : l[i]? = some x)
    (hj : l[j]? = some x) : i = j := by
  obtain ⟨hi1, hi2⟩ := List.getElem?_eq_some_iff.mp hi
  exact (List.getElem?_inj hi1 hnd).mp (hi.trans hj.symm)

theorem flatten_disjoint {α} : ∀ {l : List (List α)}, l.flatten.Nodup → ∀ {i j : Nat} {p q : List α} {x : α},
    l[i]? = some p → l[j]? = some q → x ∈ p → x ∈ q → i = j := by
  intro l
  induction l with
  | nil => intro _ i j p q x h; simp at h
  | cons a as ih =>
    intro hnd i j p q x hi hj hp hq
    rw [List.flatten_cons, List.nodup_append] at hnd
    cases i with
    | zero =>
      cases j with
      | zero => rfl
      | succ j =>
        simp at hi hj
        subst hi
        exact absurd rfl (hnd.2.2 x hp x (List.mem_flatten.mpr ⟨q, List.mem_of_getElem? hj, hq⟩))
    | succ i =>
      cases j with
      | zero =>
        simp at hi hj
        subst hj
        exact absurd rfl (hnd.2.2 x hq x (List.mem_flatten.mpr ⟨p, List.mem_of_getElem? hi, hp⟩))
      | succ j =>
        simp at hi hj
        rw [ih hnd.2.1 hi hj hp hq]

theorem mod_inj_of_close {b r : Nat} {a c : Nat} (ha : a < r) (hc : c < r) (h : (b + a) % r = (b + c) % r) : a = c := by
  have h1 := Nat.div_add_mod (b + a) r
  have h2 := Nat.div_add_mod (b + c) r
  rw [h] at h1
  rcases Nat.lt_trichotomy a c with hlt | heq | hgt
  · have : r * ((b + c) / r) = r * ((b + a) / r) + (c - a) := by omega
    have h3 : r ∣ (c - a) := by
      have := (Nat.dvd_add_right (Nat.dvd_mul_right r ((b + a) / r))).mp (this ▸ Nat.dvd_mul_right r _)
      exact this
    have := Nat.le_of_dvd (by omega) h3
    omega
  · exact heq
  · have : r * ((b + a) / r) = r * ((b + c) / r) + (a - c) := by omega
    have h3 : r ∣ (a - c) := by
      have := (Nat.dvd_add_right (Nat.dvd_mul_right r ((b + c) / r))).mp (this ▸ Nat.dvd_mul_right r _)
      exact this
    have := Nat.le_of_dvd (by omega) h3
    omega

/-- Different resource sets sharing a node have different slots on it. -/
theorem localSlots_distinct {α} {n : Nat} {nodes : List α} (hnd : nodes.Nodup) {split : List (List α)} {loc : List Nat}
    (h : splitList n nodes = some (split, loc)) {i j : Nat} (hij : i ≠ j) {x : α} {s t : Nat}
    (hi : (x, s) ∈ localSlots split (rsetsOnNode n nodes.length) i)
    (hj : (x, t) ∈ localSlots split (rsetsOnNode n nodes.length) j) : s ≠ t := by
  have h0 : ¬ (n = 0 ∨ nodes = []) := by
    intro e; unfold splitList at h; rw [if_pos e] at h; cases h
  have hn : 0 < n := by apply Nat.pos_of_ne_zero; intro e; exact h0 (Or.inl e)
  have hne : nodes ≠ [] := fun e => h0 (Or.inr e)
  by_cases hle : nodes.length ≤ n
  · rw [splitList_sub hn hne hle] at h
    injection h with h; injection h with h1 h2
    subst h1
    unfold localSlots at hi hj
    split at hi
    · cases hi
    rename_i ndi hndi
    split at hj
    · cases hj
    rename_i ndj hndj
    obtain ⟨p, a, y, hp1, hp2, hp3, rfl⟩ := split_get_sub i ndi hndi
    obtain ⟨q, b, z, hq1, hq2, hq3, rfl⟩ := split_get_sub j ndj hndj
    simp at hi hj
    have hpq : p = q := by
      apply get_inj_of_nodup hnd hp1
      rw [hq1, ← hj.1, hi.1]
    subst hpq
    rw [hi.2, hj.2]
    intro e
    have hab : a ≠ b := by intro e; apply hij; rw [hp3, hq3, e]
    apply hab
    rw [hp3, hq3] at e
    exact mod_inj_of_close (Nat.lt_of_lt_of_le hp2 (repeats_le _ _ _)) (Nat.lt_of_lt_of_le hq2 (repeats_le _ _ _)) e
  · have hlt : n < nodes.length := by omega
    rw [splitList_super hn hne hlt] at h
    injection h with h; injection h with h1 h2
    subst h1
    exfalso
    apply hij
    have key : ∀ {k u}, (x, u) ∈ localSlots (bestSplit nodes n) (rsetsOnNode n nodes.length) k →
        ∃ p, (bestSplit nodes n)[k]? = some p ∧ x ∈ p := by
      intro k u hk
      unfold localSlots at hk
      split at hk
      · cases hk
      · rename_i nd hnd'
        refine ⟨nd, hnd', ?_⟩
        split at hk
        · rw [List.mem_map] at hk
          obtain ⟨y, hy, e⟩ := hk
          cases e
          exact hy
        · cases nd with
          | nil => cases hk
          | cons y ys => simp at hk; rw [hk.1]; exact List.mem_cons_self
    obtain ⟨p, hp1, hp2⟩ := key hi
    obtain ⟨q, hq1, hq2⟩ := key hj
    have hfl : (bestSplit nodes n).flatten.Nodup := by rw [bestSplit_flatten nodes hn]; exact hnd
    exact flatten_disjoint hfl hp1 hq1 hp2 hq2

theorem gpuIds_div {n : Nat} {slots : List Nat} {lim : Option Nat} {k : Nat} (h : k ∈ gpuIds n slots lim) :
    ∃ s ∈ slots, s * n ≤ k ∧ k < (s + 1) * n := by
  have : k ∈ slots.flatMap (fun i => List.range' (i * n) n) := by
    unfold gpuIds at h
    cases lim with
    | none => exact h
    | some m => exact List.mem_of_mem_take h
  rw [List.mem_flatMap] at this
  obtain ⟨s, hs, hk⟩ := this
  rw [List.mem_range'_1] at hk
  refine ⟨s, hs, hk.1, ?_⟩
  rw [Nat.succ_mul]; exact hk.2

theorem range_unique {n s t k : Nat} (h1 : s * n ≤ k) (h2 : k < (s + 1) * n) (h3 : t * n ≤ k)
    (h4 : k < (t + 1) * n) : s = t := by
  have hn : 0 < n := by
    apply Nat.pos_of_ne_zero; intro e; subst e; simp at h2
  have e1 : k / n = s := Nat.div_eq_of_lt_le h1 h2
  have e2 : k / n = t := Nat.div_eq_of_lt_le h3 h4
  omega

theorem slotsOn_mem {α} [DecidableEq α] {split : List (List α)} {rpn : Nat} {team : List Nat} {node : α} {s : Nat} :
    s ∈ slotsOn split rpn team node ↔ ∃ i ∈ team, (node, s) ∈ localSlots split rpn i := by
  unfold slotsOn
  rw [List.mem_filterMap]
  constructor
  · rintro ⟨⟨y, t⟩, hy, ht⟩
    rw [List.mem_flatMap] at hy
    obtain ⟨i, hi, hy⟩ := hy
    simp only at ht
    split at ht
    · rename_i e
      cases ht
      subst e
      exact ⟨i, hi, hy⟩
    · cases ht
  · rintro ⟨i, hi, h⟩
    refine ⟨(node, s), List.mem_flatMap.mpr ⟨i, hi, h⟩, by simp⟩

/-! The table of an ordinary (no GPU groups) layout with at least one set per node. -/

theorem groupLoop_run {α} [DecidableEq α] (gpn : Nat) : ∀ (c : Nat) (x : List α) (rest : List (List α)) (g s : Nat),
    groupLoop gpn none (List.replicate c x ++ rest) x g s
      = (List.range' s c).map (fun j => (⟨g, j, decide (j < gpn)⟩ : RS)) ++ groupLoop gpn none rest x g (s + c) := by
  intro c
  induction c with
  | zero => intros; simp
  | succ c ih =>
    intro x rest g s
    rw [List.replicate_succ, List.cons_append, groupLoop, if_neg (by simp), ih, List.range'_succ]
    simp only [List.map_cons, List.cons_append]
    congr 3
    omega

theorem groupLoop_nodes {α} [DecidableEq α] (gpn : Nat) (f : Nat → Nat) (hf : ∀ i, 0 < f i) :
    ∀ (nodes : List α) (s t : Nat) (y : List α), nodes.Nodup → (∀ x ∈ nodes, y ≠ [x]) →
      groupLoop gpn none ((nodes.zipIdx s).flatMap (fun p => List.replicate (f p.2) [p.1])) y s t
        = (nodes.zipIdx s).flatMap (fun p => (List.range (f p.2)).map
            (fun j => (⟨p.2 + 1, j, decide (j < gpn)⟩ : RS))) := by
  intro nodes
  induction nodes with
  | nil => intros; rfl
  | cons x xs ih =>
    intro s t y hnd hy
    rw [List.nodup_cons] at hnd
    rw [List.zipIdx_cons, List.flatMap_cons, List.flatMap_cons]
    obtain ⟨c, hc⟩ : ∃ c, f s = c + 1 := ⟨f s - 1, by have := hf s; omega⟩
    simp only [hc]
    rw [List.replicate_succ, List.cons_append, groupLoop,
      if_pos (Or.inl (fun e => hy x List.mem_cons_self e.symm)), groupLoop_run,
      ih (s + 1) _ [x] hnd.2 (by
        intro z hz e
        simp at e
        exact hnd.1 (e ▸ hz)),
      range_map_cons]
    simp

theorem groupList_nodes {α} [DecidableEq α] (gpn : Nat) (f : Nat → Nat) (hf : ∀ i, 0 < f i)
    (nodes : List α) (hnd : nodes.Nodup) :
    groupList ((nodes.zipIdx 0).flatMap (fun p => List.replicate (f p.2) [p.1])) gpn none
      = (nodes.zipIdx 0).flatMap (fun p => (List.range (f p.2)).map
          (fun j => (⟨p.2 + 1, j, decide (j < gpn)⟩ : RS))) := by
  rw [← groupLoop_nodes gpn f hf nodes 0 0 [] hnd (by simp)]
  cases nodes with
  | nil => rfl
  | cons x xs =>
    rw [List.zipIdx_cons, List.flatMap_cons]
    obtain ⟨c, hc⟩ : ∃ c, f 0 = c + 1 := ⟨f 0 - 1, by have := hf 0; omega⟩
    simp only [hc, List.replicate_succ, List.cons_append]
    unfold groupList
    simp only
    rw [groupLoop, groupLoop, if_neg (by simp), if_pos (by simp)]

theorem groupLoop_distinct {α} [DecidableEq α] (gpn : Nat) :
    ∀ (l : List (List α)) (y : List α) (g t : Nat), l.Nodup → y ∉ l →
      groupLoop gpn none l y g t = (List.range' (g + 1) l.length).map (fun i => (⟨i, 0, decide (0 < gpn)⟩ : RS)) := by
  intro l
  induction l with
  | nil => intros; rfl
  | cons x xs ih =>
    intro y g t hnd hy
    rw [List.nodup_cons] at hnd
    rw [groupLoop, if_pos (Or.inl (by intro e; apply hy; rw [e]; exact List.mem_cons_self)), ih x (g + 1) 1 hnd.2 hnd.1,
      List.length_cons, List.range'_succ]
    rfl

theorem groupList_distinct {α} [DecidableEq α] (gpn : Nat) (l : List (List α)) (hnd : l.Nodup) (hne : [] ∉ l) :
    groupList l gpn none = (List.range' 1 l.length).map (fun i => (⟨i, 0, decide (0 < gpn)⟩ : RS)) := by
  rw [← groupLoop_distinct gpn l [] 0 0 hnd hne]
  cases l with
  | nil => rfl
  | cons x xs =>
    unfold groupList
    simp only
    rw [groupLoop, groupLoop, if_neg (by simp), if_pos (by left; intro e; apply hne; rw [e]; exact List.mem_cons_self)]

end Verif.Res
