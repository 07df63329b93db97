import Verif.Resources.Model
import Verif.Util.Lists
/-! Helper lemmas about the default worker to resource set map. -/
namespace Verif.Res

theorem indexLoop_length (nr : Nat) (zero : List Nat) : ∀ n i idx, (indexLoop nr zero n i idx).length = n := by
  intro n
  induction n with
  | zero => intros; rfl
  | succ n ih => intro i idx; unfold indexLoop; split <;> simp [ih]

/-- Workers `i … i+n-1` that need resources. -/
def needy (zero : List Nat) (i n : Nat) : List Nat := (List.range' i n).filter (fun w => decide (w ∉ zero))

theorem needy_succ (zero : List Nat) (i n : Nat) :
    needy zero i (n + 1) = if i ∈ zero then needy zero (i + 1) n else i :: needy zero (i + 1) n := by
  unfold needy
  rw [List.range'_succ, List.filter_cons]
  by_cases h : i ∈ zero <;> simp [h]

theorem indexLoop_filterMap (nr : Nat) (zero : List Nat) : ∀ n i idx,
    (indexLoop nr zero n i idx).filterMap id = List.range' idx (min (needy zero i n).length (nr - idx)) := by
  intro n
  induction n with
  | zero => intros; simp [indexLoop, needy]
  | succ n ih =>
    intro i idx
    unfold indexLoop
    rw [needy_succ]
    split
    · simp [ih]
    · rw [List.filterMap_cons]
      by_cases hge : idx ≥ nr
      · rw [if_pos hge]
        simp only [id]
        rw [ih, show nr - (idx + 1) = 0 by omega, show nr - idx = 0 by omega]
        simp
      · rw [if_neg hge]
        simp only [id]
        rw [ih, List.length_cons]
        obtain ⟨m, hm⟩ : ∃ m, min ((needy zero (i + 1) n).length + 1) (nr - idx) = m + 1 :=
          ⟨min ((needy zero (i + 1) n).length + 1) (nr - idx) - 1, by omega⟩
        rw [hm, List.range'_succ]
        congr 2
        omega

theorem indexLoop_get (nr : Nat) (zero : List Nat) : ∀ n i idx k, k < n →
    (indexLoop nr zero n i idx)[k]? = some
      (if i + k ∈ zero then none
       else if idx + (needy zero i k).length ≥ nr then none else some (idx + (needy zero i k).length)) := by
  intro n
  induction n with
  | zero => intro i idx k hk; omega
  | succ n ih =>
    intro i idx k hk
    unfold indexLoop
    cases k with
    | zero =>
      split <;> rename_i h
      · simp [h]
      · simp [h, needy]
    | succ k =>
      rw [needy_succ]
      split <;> rename_i h
      · rw [List.getElem?_cons_succ, ih (i + 1) idx k (by omega)]
        rw [show i + (k + 1) = i + 1 + k by omega]
      · rw [List.getElem?_cons_succ, ih (i + 1) (idx + 1) k (by omega)]
        rw [show i + (k + 1) = i + 1 + k by omega, List.length_cons,
          show idx + 1 + (needy zero (i + 1) k).length = idx + ((needy zero (i + 1) k).length + 1) by omega]

theorem needy_length {zero : List Nat} {n : Nat} (hnd : zero.Nodup) (hr : ∀ w ∈ zero, 1 ≤ w ∧ w ≤ n) :
    (needy zero 1 n).length + zero.length = n := by
  have h1 : zero.length = ((List.range' 1 n).filter (fun w => decide (w ∈ zero))).length := by
    apply length_eq_of_nodup_mem hnd (List.Pairwise.filter _ List.nodup_range')
    intro w
    rw [List.mem_filter, List.mem_range'_1]
    constructor
    · intro h; have := hr w h; simp [h]; omega
    · intro h; simpa using h.2
  rw [h1]
  unfold needy
  have h2 := List.length_eq_countP_add_countP (fun w => decide (w ∈ zero)) (l := List.range' 1 n)
  rw [List.length_range'] at h2
  rw [← List.countP_eq_length_filter, ← List.countP_eq_length_filter]
  have h3 : (List.range' 1 n).countP (fun w => decide (w ∉ zero)) =
      (List.range' 1 n).countP (fun a => decide ¬(decide (a ∈ zero) = true)) := by
    apply List.countP_congr; intro x _; simp
  rw [h3]
  omega

end Verif.Res
