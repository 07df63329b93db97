import Verif.Resources.Model
/-! Helper lemmas about splitting node lists. -/
namespace Verif.Res

theorem slice_append {α} (a : List α) {i j k : Nat} (hij : i ≤ j) (hjk : j ≤ k) :
    slice a i j ++ slice a j k = slice a i k := by
  unfold slice
  have h1 : a.drop j = (a.drop i).drop (j - i) := by rw [List.drop_drop]; congr 1; omega
  rw [h1]
  have : k - i = (j - i) + (k - j) := by omega
  rw [this, List.take_add]

theorem slice_length {α} (a : List α) {i j : Nat} (hj : j ≤ a.length) :
    (slice a i j).length = j - i := by
  unfold slice; simp; omega

theorem slices_flatten {α} (a : List α) (f : Nat → Nat) (hf : ∀ i, f i ≤ f (i + 1)) (n : Nat) :
    ((List.range n).map (fun i => slice a (f i) (f (i + 1)))).flatten = slice a (f 0) (f n) := by
  induction n with
  | zero => simp [slice]
  | succ n ih =>
    rw [List.range_succ, List.map_append, List.flatten_append, ih]
    simp only [List.map_cons, List.map_nil, List.flatten_cons, List.flatten_nil, List.append_nil]
    apply slice_append _ _ (hf n)
    clear ih
    induction n with
    | zero => exact Nat.le_refl _
    | succ n ih => exact Nat.le_trans ih (hf n)

/-- start of part `i` -/
def cut (k m i : Nat) : Nat := i * k + min i m

theorem cut_succ (k m i : Nat) : cut k m (i + 1) = cut k m i + (if i < m then k + 1 else k) := by
  unfold cut; rw [Nat.succ_mul]; split <;> omega

theorem cut_mono (k m i : Nat) : cut k m i ≤ cut k m (i + 1) := by
  rw [cut_succ]; split <;> omega

theorem cut_mono' (k m : Nat) {i j : Nat} (h : i ≤ j) : cut k m i ≤ cut k m j := by
  induction h with
  | refl => exact Nat.le_refl _
  | step _ ih => exact Nat.le_trans ih (cut_mono _ _ _)

theorem cut_end (n len : Nat) (hn : 0 < n) : cut (len / n) (len % n) n = len := by
  unfold cut
  have := Nat.mod_lt len hn
  have h2 := Nat.div_add_mod len n
  omega

theorem bestSplit_eq {α} (a : List α) (n : Nat) :
    bestSplit a n = (List.range n).map (fun i =>
      slice a (cut (a.length / n) (a.length % n) i) (cut (a.length / n) (a.length % n) (i + 1))) := rfl

theorem bestSplit_flatten {α} (a : List α) {n : Nat} (hn : 0 < n) : (bestSplit a n).flatten = a := by
  rw [bestSplit_eq, slices_flatten a (cut (a.length / n) (a.length % n)) (cut_mono _ _) n,
    cut_end n a.length hn]
  simp [slice, cut]

theorem bestSplit_length {α} (a : List α) (n : Nat) : (bestSplit a n).length = n := by
  simp [bestSplit]

theorem bestSplit_part {α} (a : List α) {n : Nat} (hn : 0 < n) {i : Nat} (hi : i < n) :
    ∃ p, (bestSplit a n)[i]? = some p ∧
      p.length = if i < a.length % n then a.length / n + 1 else a.length / n := by
  rw [bestSplit_eq]
  refine ⟨slice a (cut (a.length / n) (a.length % n) i) (cut (a.length / n) (a.length % n) (i + 1)), ?_, ?_⟩
  · simp [hi]
  · rw [slice_length, cut_succ]
    · rw [Nat.add_sub_cancel_left]
    · have h1 := cut_mono' (a.length / n) (a.length % n) (Nat.succ_le_of_lt hi)
      rw [cut_end n a.length hn] at h1
      exact h1

theorem bestSplit_part_mem {α} (a : List α) {n : Nat} (hn : 0 < n) {p : List α} (hp : p ∈ bestSplit a n) :
    p.length = a.length / n ∨ p.length = a.length / n + 1 := by
  rw [List.mem_iff_getElem?] at hp
  obtain ⟨i, hi⟩ := hp
  have hlt : i < n := by
    have := List.getElem?_eq_some_iff.mp hi
    obtain ⟨h, _⟩ := this
    rw [bestSplit_length] at h; exact h
  obtain ⟨q, hq, hlen⟩ := bestSplit_part a hn hlt
  rw [hi] at hq
  cases hq
  rw [hlen]; split <;> simp

/-- A list split in as many parts as it has elements gives singletons. -/
theorem bestSplit_singletons {α} (a : List α) (ha : a ≠ []) : bestSplit a a.length = a.map (fun x => [x]) := by
  have hpos : 0 < a.length := List.length_pos_iff.mpr ha
  apply List.ext_getElem?
  intro i
  by_cases hi : i < a.length
  · rw [bestSplit_eq]
    simp only [List.getElem?_map]
    rw [List.getElem?_range hi]
    simp only [Option.map_some, Nat.mod_self, Nat.div_self hpos]
    rw [List.getElem?_eq_getElem hi]
    simp only [Option.map_some, Option.some.injEq]
    unfold slice cut
    simp only [Nat.mul_one, Nat.min_zero, Nat.add_zero]
    rw [show i + 1 - i = 1 by omega, List.drop_eq_getElem_cons hi]
    rfl
  · rw [List.getElem?_eq_none (by rw [bestSplit_length]; omega),
      List.getElem?_eq_none (by simp; omega)]

theorem sum_repeats_aux (k m : Nat) : ∀ n s : Nat,
    ((List.range' s n).map (fun i => if i < m then k + 1 else k)).sum = cut k m (s + n) - cut k m s := by
  intro n
  induction n with
  | zero => intro s; simp
  | succ n ih =>
    intro s
    rw [List.range'_succ, List.map_cons, List.sum_cons, ih (s + 1)]
    have h1 := cut_succ k m s
    have h2 := cut_mono' k m (Nat.le_add_right (s + 1) n)
    rw [show s + (n + 1) = s + 1 + n by omega]
    omega

theorem expand_eq {α} (nn nw : Nat) (nodes : List α) (s : Nat) :
    ((nodes.zipIdx s).flatMap (fun p => List.replicate (repeats nn nw p.2) p.1)).length
      = cut (nw / nn) (nw % nn) (s + nodes.length) - cut (nw / nn) (nw % nn) s := by
  rw [List.length_flatMap, ← sum_repeats_aux]
  induction nodes generalizing s with
  | nil => simp
  | cons x xs ih =>
    rw [List.zipIdx_cons]
    simp only [List.map_cons, List.sum_cons, List.length_cons, List.range'_succ, List.length_replicate]
    have := ih (s + 1)
    simp only [List.length_replicate] at this
    rw [this]
    rfl

theorem expandList_length {α} (nw : Nat) (nodes : List α) (h : nodes ≠ []) :
    (expandList nodes.length nw nodes).1.length = nw := by
  have hpos : 0 < nodes.length := List.length_pos_iff.mpr h
  unfold expandList
  simp only
  rw [expand_eq]
  simp only [Nat.zero_add]
  rw [cut_end _ _ hpos]
  simp [cut]

theorem expandList_mem {α} {nn nw : Nat} {nodes : List α} {x : α} (h : x ∈ (expandList nn nw nodes).1) :
    x ∈ nodes := by
  unfold expandList at h
  simp only [List.mem_flatMap] at h
  obtain ⟨p, hp, hx⟩ := h
  rw [List.mem_replicate] at hx
  rw [hx.2]
  obtain ⟨a, b⟩ := p
  exact (List.mem_zipIdx' hp).2 ▸ List.getElem_mem _

theorem count_zipIdx {α} [DecidableEq α] (f : Nat → Nat) : ∀ (nodes : List α) (s i : Nat) (x : α),
    nodes.Nodup → nodes[i]? = some x →
    ((nodes.zipIdx s).flatMap (fun p => List.replicate (f p.2) p.1)).count x = f (s + i) := by
  intro nodes
  induction nodes with
  | nil => intro s i x _ h; simp at h
  | cons y ys ih =>
    intro s i x hnd h
    rw [List.zipIdx_cons, List.flatMap_cons, List.count_append]
    rw [List.nodup_cons] at hnd
    cases i with
    | zero =>
      simp at h
      subst h
      have h0 : ((ys.zipIdx (s + 1)).flatMap (fun p => List.replicate (f p.2) p.1)).count y = 0 := by
        rw [List.count_eq_zero]
        intro hm
        rw [List.mem_flatMap] at hm
        obtain ⟨⟨a, b⟩, hp, hx⟩ := hm
        rw [List.mem_replicate] at hx
        have hb := List.mem_zipIdx hp
        apply hnd.1
        rw [hx.2]
        simp only
        rw [hb.2.2]
        exact List.getElem_mem _
      simp [h0]
    | succ i =>
      simp only [List.getElem?_cons_succ] at h
      have hne : y ≠ x := by
        intro e
        subst e
        exact hnd.1 (List.mem_of_getElem? h)
      rw [ih (s + 1) i x hnd.2 h]
      have : (List.replicate (f s) y).count x = 0 := by
        rw [List.count_eq_zero]
        intro hm
        exact hne (List.eq_of_mem_replicate hm).symm
      simp only [this]
      rw [Nat.zero_add]; congr 1; omega

theorem expandList_count {α} [DecidableEq α] {nn nw : Nat} {nodes : List α} (hnd : nodes.Nodup) {i : Nat} {x : α}
    (h : nodes[i]? = some x) : (expandList nn nw nodes).1.count x = repeats nn nw i := by
  have := count_zipIdx (repeats nn nw) nodes 0 i x hnd h
  simpa [expandList] using this

end Verif.Res
