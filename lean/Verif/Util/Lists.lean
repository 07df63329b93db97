/-! Small list facts that core Lean does not provide. -/
namespace Verif

theorem nodup_eraseDups {α} [BEq α] [LawfulBEq α] (l : List α) : l.eraseDups.Nodup := by
  generalize hn : l.length = n
  induction n using Nat.strongRecOn generalizing l with
  | _ n ih =>
    cases l with
    | nil => simp
    | cons a l =>
      rw [List.eraseDups_cons, List.nodup_cons]
      constructor
      · simp [List.mem_eraseDups]
      · refine ih _ ?_ _ rfl
        have := List.length_filter_le (fun b => !b == a) l
        simp at hn
        omega

/-- Two duplicate-free lists with the same elements have the same length. -/
theorem length_eq_of_nodup_mem {α} {l₁ l₂ : List α} (h₁ : l₁.Nodup) (h₂ : l₂.Nodup)
    (h : ∀ a, a ∈ l₁ ↔ a ∈ l₂) : l₁.length = l₂.length :=
  ((List.perm_ext_iff_of_nodup h₁ h₂).2 h).length_eq

/-! Insertion sort: the model of Python's stable `sorted` (reduces by structural recursion, so that concrete cases can be
evaluated by the kernel).  Elements that come earlier stay earlier among equal keys. -/

def insertSorted {α} (le : α → α → Bool) (x : α) : List α → List α
  | [] => [x]
  | y :: ys => if le x y then x :: y :: ys else y :: insertSorted le x ys

def isort {α} (le : α → α → Bool) : List α → List α
  | [] => []
  | x :: xs => insertSorted le x (isort le xs)

/-- `sorted` of natural numbers. -/
def sortNat (l : List Nat) : List Nat := isort (fun a b => decide (a ≤ b)) l

theorem insertSorted_perm {α} (le : α → α → Bool) (x : α) (l : List α) : (insertSorted le x l).Perm (x :: l) := by
  induction l with
  | nil => exact List.Perm.refl _
  | cons y ys ih =>
    unfold insertSorted
    split
    · exact List.Perm.refl _
    · exact (List.Perm.cons y ih).trans (List.Perm.swap x y ys)

theorem isort_perm {α} (l : List α) (le : α → α → Bool) : (isort le l).Perm l := by
  induction l with
  | nil => exact List.Perm.refl _
  | cons x xs ih => exact (insertSorted_perm le x _).trans (List.Perm.cons x ih)

theorem mem_isort {α} {le : α → α → Bool} {l : List α} {x : α} : x ∈ isort le l ↔ x ∈ l := (isort_perm l le).mem_iff

theorem length_isort {α} {le : α → α → Bool} {l : List α} : (isort le l).length = l.length := (isort_perm l le).length_eq

theorem mem_sortNat {l : List Nat} {x : Nat} : x ∈ sortNat l ↔ x ∈ l := mem_isort
theorem length_sortNat {l : List Nat} : (sortNat l).length = l.length := length_isort
theorem sortNat_perm (l : List Nat) : (sortNat l).Perm l := isort_perm l _

theorem pairwise_isort {α} {le : α → α → Bool} (trans : ∀ a b c, le a b = true → le b c = true → le a c = true)
    (total : ∀ a b, (le a b || le b a) = true) (l : List α) : (isort le l).Pairwise (fun a b => le a b = true) := by
  induction l with
  | nil => exact List.Pairwise.nil
  | cons x xs ih =>
    unfold isort
    have hins : ∀ l : List α, l.Pairwise (fun a b => le a b = true) → (insertSorted le x l).Pairwise (fun a b => le a b = true) := by
      intro l
      induction l with
      | nil => intro _; exact List.pairwise_singleton _ _
      | cons y ys ih2 =>
        intro h
        rw [List.pairwise_cons] at h
        unfold insertSorted
        split
        · rename_i hxy
          refine List.pairwise_cons.mpr ⟨?_, List.pairwise_cons.mpr h⟩
          intro z hz
          rcases List.mem_cons.mp hz with e | hz
          · rw [e]; exact hxy
          · exact trans x y z hxy (h.1 z hz)
        · rename_i hxy
          refine List.pairwise_cons.mpr ⟨?_, ih2 h.2⟩
          intro z hz
          rcases List.mem_cons.mp ((insertSorted_perm le x ys).mem_iff.mp hz) with e | hz
          · rw [e]
            have := total x y
            simp only [Bool.or_eq_true] at this
            rcases this with e' | e'
            · exact absurd e' hxy
            · exact e'
          · exact h.1 z hz
    exact hins _ ih

end Verif
