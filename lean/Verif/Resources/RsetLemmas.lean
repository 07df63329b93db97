import Verif.Resources.SlotLemmas
/-! Helper lemmas: the table of an ordinary layout, entry by entry. -/
namespace Verif.Res

theorem cut_unique {nn n p q a b : Nat} (ha : a < repeats nn n p) (hb : b < repeats nn n q)
    (h : cut (n / nn) (n % nn) p + a = cut (n / nn) (n % nn) q + b) : p = q ∧ a = b := by
  have hp := cut_repeats nn n p
  have hq := cut_repeats nn n q
  rcases Nat.lt_trichotomy p q with hlt | heq | hgt
  · have := cut_mono' (n / nn) (n % nn) (Nat.succ_le_of_lt hlt)
    simp only [Nat.succ_eq_add_one] at this
    omega
  · subst heq; exact ⟨rfl, by omega⟩
  · have := cut_mono' (n / nn) (n % nn) (Nat.succ_le_of_lt hgt)
    simp only [Nat.succ_eq_add_one] at this
    omega

theorem splitList_pos {α} {n : Nat} {nodes : List α} {r} (h : splitList n nodes = some r) : 0 < n ∧ nodes ≠ [] := by
  have h0 : ¬ (n = 0 ∨ nodes = []) := by
    intro e; unfold splitList at h; rw [if_pos e] at h; cases h
  exact ⟨by apply Nat.pos_of_ne_zero; intro e; exact h0 (Or.inl e), fun e => h0 (Or.inr e)⟩

theorem flatMap_map_comm {α β γ} (g : β → γ) (l : List α) (f : α → List β) :
    (l.flatMap f).map g = l.flatMap (fun x => (f x).map g) := by
  induction l with
  | nil => rfl
  | cons x xs ih => rw [List.flatMap_cons, List.map_append, ih, List.flatMap_cons]

/-- Entry `i` of the table when sets are at least as many as nodes. -/
theorem rsets_get_sub {α} [DecidableEq α] {n : Nat} {nodes : List α} (hnd : nodes.Nodup) (hne : nodes ≠ [])
    (hle : nodes.length ≤ n) (gpn : Nat) {i : Nat} {r : RS}
    (h : (groupList ((expandList nodes.length n nodes).1.map (fun x => [x])) gpn none)[i]? = some r) :
    ∃ p j x, nodes[p]? = some x ∧ j < repeats nodes.length n p ∧
      i = cut (n / nodes.length) (n % nodes.length) p + j ∧ r = ⟨p + 1, j, decide (j < gpn)⟩ := by
  have hpos : ∀ i, 0 < repeats nodes.length n i := by
    intro i
    have : 0 < n / nodes.length := Nat.div_pos hle (List.length_pos_iff.mpr hne)
    unfold repeats; split <;> omega
  have e : (expandList nodes.length n nodes).1.map (fun x => [x])
      = (nodes.zipIdx 0).flatMap (fun p => List.replicate (repeats nodes.length n p.2) [p.1]) := by
    unfold expandList
    simp only
    rw [flatMap_map_comm]
    simp
  rw [e, groupList_nodes gpn _ hpos nodes hnd] at h
  obtain ⟨p, j, x, h1, h2, h3, h4⟩ := flatMap_get (fun _ q j => (⟨q + 1, j, decide (j < gpn)⟩ : RS))
    (repeats nodes.length n) (cut (n / nodes.length) (n % nodes.length)) (cut_repeats _ _) nodes 0 i r h
  refine ⟨p, j, x, h1, by simpa using h2, ?_, by simpa using h4⟩
  simp only [Nat.zero_add] at h3
  rw [← h3]
  simp [cut]

theorem rsets_get_super {α} [DecidableEq α] {n : Nat} {nodes : List α} (hnd : nodes.Nodup) (hn : 0 < n)
    (hlt : n < nodes.length) (gpn : Nat) {i : Nat} {r : RS}
    (h : (groupList (bestSplit nodes n) gpn none)[i]? = some r) : r = ⟨i + 1, 0, decide (0 < gpn)⟩ := by
  rw [groupList_distinct gpn _ (bestSplit_nodup hn (Nat.le_of_lt hlt) hnd)
    (fun hm => bestSplit_nonempty hn (Nat.le_of_lt hlt) [] hm rfl)] at h
  rw [List.getElem?_map] at h
  cases hx : (List.range' 1 (bestSplit nodes n).length)[i]? with
  | none => rw [hx] at h; cases h
  | some v =>
    rw [hx] at h
    have hv := List.getElem?_eq_some_iff.mp hx
    obtain ⟨hi, hv⟩ := hv
    rw [List.getElem_range'] at hv
    simp at h
    rw [← h, ← hv]
    simp; omega

theorem blocks_filter (gpn : Nat) : ∀ (sizes : List Nat) (g0 g : Nat),
    ((blocks gpn g0 sizes).filter (fun r => decide (r.group = g))).map (·.slot)
      = List.range (if g0 ≤ g then (sizes[g - g0]?).getD 0 else 0) := by
  intro sizes
  induction sizes with
  | nil => intro g0 g; simp [blocks]
  | cons s ss ih =>
    intro g0 g
    rw [blocks, List.filter_append, List.map_append, ih]
    by_cases hg : g0 = g
    · subst hg
      rw [List.filter_eq_self.mpr (by intro a ha; rw [List.mem_map] at ha; obtain ⟨j, _, rfl⟩ := ha; simp)]
      rw [if_neg (by omega), if_pos (Nat.le_refl _), List.map_map]
      simp [Function.comp_def]
    · rw [List.filter_eq_nil_iff.mpr (by intro a ha; rw [List.mem_map] at ha; obtain ⟨j, _, rfl⟩ := ha; simpa using hg)]
      simp only [List.map_nil, List.nil_append]
      by_cases hlt : g0 < g
      · rw [if_pos (by omega), if_pos (by omega)]
        rw [show g - g0 = (g - (g0 + 1)) + 1 by omega, List.getElem?_cons_succ]
      · rw [if_neg (by omega), if_neg (by omega)]

end Verif.Res
