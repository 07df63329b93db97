import Verif.Nodes.Model
import Verif.Labels.Props
/-!
Helper lemmas for the expansion of node lists.
-/
namespace Verif.Nodes
open Verif.Labels (Str str int str_digits int_str)

/-! ### Sorting -/

theorem insertBy_perm {α} (le : α → α → Bool) (x : α) (l : List α) : (insertBy le x l).Perm (x :: l) := by
  induction l with
  | nil => exact List.Perm.refl _
  | cons y ys ih =>
    unfold insertBy
    split
    · exact List.Perm.refl _
    · exact (ih.cons y).trans (List.Perm.swap x y ys)

theorem sortBy_perm {α} (le : α → α → Bool) (l : List α) : (sortBy le l).Perm l := by
  induction l with
  | nil => exact List.Perm.refl _
  | cons x xs ih => exact (insertBy_perm le x _).trans (ih.cons x)

theorem insertBy_sorted {α} {le : α → α → Bool} (tot : ∀ a b, le a b = true ∨ le b a = true)
    (tr : ∀ a b c, le a b = true → le b c = true → le a c = true) (x : α) {l : List α} (h : l.Pairwise (fun a b => le a b = true)) :
    (insertBy le x l).Pairwise (fun a b => le a b = true) := by
  induction l with
  | nil => simp [insertBy]
  | cons y ys ih =>
    rw [List.pairwise_cons] at h
    unfold insertBy
    split
    · rename_i hxy
      rw [List.pairwise_cons, List.pairwise_cons]
      refine ⟨?_, h⟩
      intro a ha
      rcases List.mem_cons.mp ha with rfl | ha
      · exact hxy
      · exact tr _ _ _ hxy (h.1 a ha)
    · rename_i hxy
      rw [List.pairwise_cons]
      refine ⟨?_, ih h.2⟩
      intro a ha
      rcases List.mem_cons.mp ((insertBy_perm le x ys).mem_iff.mp ha) with rfl | ha
      · exact (tot a y).resolve_left hxy
      · exact h.1 a ha

theorem sortBy_sorted {α} {le : α → α → Bool} (tot : ∀ a b, le a b = true ∨ le b a = true)
    (tr : ∀ a b c, le a b = true → le b c = true → le a c = true) (l : List α) : (sortBy le l).Pairwise (fun a b => le a b = true) := by
  induction l with
  | nil => exact List.Pairwise.nil
  | cons x xs ih => exact insertBy_sorted tot tr x ih

theorem sortBy_id {α} {le : α → α → Bool} {l : List α} (h : l.Pairwise (fun a b => le a b = true)) : sortBy le l = l := by
  induction l with
  | nil => rfl
  | cons x xs ih =>
    rw [List.pairwise_cons] at h
    unfold sortBy
    rw [ih h.2]
    cases xs with
    | nil => rfl
    | cons y ys =>
      unfold insertBy
      rw [if_pos (h.1 y List.mem_cons_self)]

/-! ### The order of strings -/

theorem lexLe_total : ∀ a b : Str, lexLe a b = true ∨ lexLe b a = true
  | [], _ => .inl rfl
  | _ :: _, [] => .inr rfl
  | x :: xs, y :: ys => by
    unfold lexLe
    by_cases h : x = y
    · subst h
      simp only [if_true]
      exact lexLe_total xs ys
    · rw [if_neg h, if_neg (fun e => h e.symm)]
      have : x.toNat ≠ y.toNat := fun e => h (Char.toNat_inj.mp e)
      simp only [decide_eq_true_eq]
      omega

theorem lexLe_trans : ∀ a b c : Str, lexLe a b = true → lexLe b c = true → lexLe a c = true
  | [], _, _, _, _ => rfl
  | _ :: _, [], _, h, _ => by simp [lexLe] at h
  | _ :: _, _ :: _, [], _, h => by simp [lexLe] at h
  | x :: xs, y :: ys, z :: zs, h1, h2 => by
    unfold lexLe at h1 h2 ⊢
    by_cases hxy : x = y
    · subst hxy
      rw [if_pos rfl] at h1
      by_cases hxz : x = z
      · subst hxz
        rw [if_pos rfl] at h2 ⊢
        exact lexLe_trans xs ys zs h1 h2
      · rw [if_neg hxz] at h2 ⊢
        exact h2
    · rw [if_neg hxy] at h1
      simp only [decide_eq_true_eq] at h1
      by_cases hyz : y = z
      · subst hyz
        rw [if_neg hxy]
        simp [h1]
      · rw [if_neg hyz] at h2
        simp only [decide_eq_true_eq] at h2
        have : x ≠ z := by intro e; subst e; omega
        rw [if_neg this]
        simp only [decide_eq_true_eq]
        omega

theorem lexLe_refl : ∀ a : Str, lexLe a a = true
  | [] => rfl
  | _ :: xs => by unfold lexLe; rw [if_pos rfl]; exact lexLe_refl xs

theorem lexLe_append (p a b : Str) : lexLe (p ++ a) (p ++ b) = lexLe a b := by
  induction p with
  | nil => rfl
  | cons x xs ih => simp only [List.cons_append, lexLe, if_true]; exact ih

/-- Strings of equal length compare before anything that follows. -/
theorem lexLe_suffix : ∀ {a b : Str} (s : Str), a.length = b.length → lexLe a b = true → lexLe (a ++ s) (b ++ s) = true
  | [], [], s, _, _ => lexLe_refl s
  | x :: xs, y :: ys, s, hl, h => by
    simp only [List.cons_append]
    unfold lexLe at h ⊢
    split
    · rename_i e
      rw [if_pos e] at h
      exact lexLe_suffix s (by simpa using hl) h
    · rename_i e
      rw [if_neg e] at h
      exact h
  | [], _ :: _, _, hl, _ => by simp at hl
  | _ :: _, [], _, hl, _ => by simp at hl

/-! ### Numbers -/

theorem int_cons (c : Char) (s : Str) : int (c :: s) = (c.toNat - 48) * 10 ^ s.length + int s := by
  unfold int
  have := Nat.ofDigitChars_append (b := 10) (l := [c]) (m := s) (init := 0)
  simp only [List.singleton_append] at this
  rw [this]
  rw [Nat.ofDigitChars_eq_ofDigitChars_zero]
  simp [Nat.ofDigitChars, Nat.mul_comm]

theorem int_lt {s : Str} (h : ∀ c ∈ s, c.isDigit = true) : int s < 10 ^ s.length := by
  induction s with
  | nil => simp [int]
  | cons c s ih =>
    rw [int_cons]
    have h1 := ih (fun x hx => h x (List.mem_cons_of_mem _ hx))
    have h2 := h c List.mem_cons_self
    have h3 : c.toNat - 48 ≤ 9 := by
      simp only [Char.isDigit, Bool.and_eq_true, decide_eq_true_eq] at h2
      have : c.val.toNat ≤ 57 := h2.2
      show c.val.toNat - 48 ≤ 9
      omega
    have := Nat.mul_le_mul_right (10 ^ s.length) h3
    rw [List.length_cons, Nat.pow_succ]
    omega

/-- Among digit strings of equal length the order of strings is the order of numbers. -/
theorem lexLe_int : ∀ {s t : Str}, s.length = t.length → (∀ c ∈ s, c.isDigit = true) → (∀ c ∈ t, c.isDigit = true) →
    int s ≤ int t → lexLe s t = true
  | [], _, _, _, _, _ => rfl
  | _ :: _, [], hl, _, _, _ => by simp at hl
  | x :: xs, y :: ys, hl, hs, ht, h => by
    have hl' : xs.length = ys.length := by simpa using hl
    rw [int_cons, int_cons, hl'] at h
    have h1 := int_lt (fun c hc => hs c (List.mem_cons_of_mem _ hc))
    have h2 := int_lt (fun c hc => ht c (List.mem_cons_of_mem _ hc))
    rw [hl'] at h1
    have dig : ∀ c : Char, c.isDigit = true → 48 ≤ c.toNat := by
      intro c hc
      simp only [Char.isDigit, Bool.and_eq_true, decide_eq_true_eq] at hc
      exact hc.1
    have hx := dig x (hs x List.mem_cons_self)
    have hy := dig y (ht y List.mem_cons_self)
    unfold lexLe
    split
    · rename_i e
      subst e
      exact lexLe_int hl' (fun c hc => hs c (List.mem_cons_of_mem _ hc)) (fun c hc => ht c (List.mem_cons_of_mem _ hc)) (by omega)
    · rename_i e
      simp only [decide_eq_true_eq]
      apply Classical.byContradiction
      intro hn
      have hne : x.toNat ≠ y.toNat := fun e' => e (Char.toNat_inj.mp e')
      have : y.toNat - 48 + 1 ≤ x.toNat - 48 := by omega
      have := Nat.mul_le_mul_right (10 ^ ys.length) this
      rw [Nat.succ_mul] at this
      omega

theorem str_ne_nil (n : Nat) : str n ≠ [] := by
  intro h
  have := Nat.length_toDigits_pos (b := 10) (n := n)
  unfold str at h
  rw [h] at this
  simp at this

theorem str_length_mono {a b : Nat} (h : a ≤ b) : (str a).length ≤ (str b).length := by
  unfold str
  have hb := (Nat.length_toDigits_le_iff (n := b) (b := 10) (k := (Nat.toDigits 10 b).length) (by omega) (Nat.length_toDigits_pos)).mp (Nat.le_refl _)
  exact (Nat.length_toDigits_le_iff (by omega) Nat.length_toDigits_pos).mpr (by omega)

theorem zfill_digits {w n : Nat} {c : Char} (h : c ∈ zfill w (str n)) : c.isDigit = true := by
  unfold zfill at h
  rcases List.mem_append.mp h with h | h
  · rw [List.eq_of_mem_replicate h]; decide
  · exact str_digits h

theorem zfill_int (w n : Nat) : int (zfill w (str n)) = n := by
  unfold zfill
  rw [Verif.Labels.int_zeros, int_str]

theorem zfill_length (w : Nat) (s : Str) : (zfill w s).length = max w s.length := by
  unfold zfill
  simp
  omega

theorem zfill_ne_nil (w n : Nat) : zfill w (str n) ≠ [] := by
  unfold zfill
  simp [str_ne_nil]

theorem toInt_zfill (w n : Nat) : toInt (zfill w (str n)) = some n := by
  unfold toInt
  rw [if_pos ⟨zfill_ne_nil w n, List.all_eq_true.mpr (fun c hc => zfill_digits hc)⟩]
  exact congrArg some (zfill_int w n)

/-! ### Splitting -/

theorem splitFirst_none {c : Char} {s : Str} (h : c ∉ s) : splitFirst c s = (s, none) := by
  induction s with
  | nil => rfl
  | cons x xs ih =>
    simp only [List.mem_cons, not_or] at h
    unfold splitFirst
    rw [if_neg (fun e => h.1 e.symm), ih h.2]

theorem splitFirst_append {c : Char} {s : Str} (t : Str) (h : c ∉ s) : splitFirst c (s ++ c :: t) = (s, some t) := by
  induction s with
  | nil => simp [splitFirst]
  | cons x xs ih =>
    simp only [List.mem_cons, not_or] at h
    simp only [List.cons_append, splitFirst]
    rw [if_neg (fun e => h.1 e.symm), ih h.2]

theorem splitAll_eq (c : Char) : ∀ s : Str, splitAll c s = Verif.Labels.cutAt c s
  | [] => rfl
  | x :: xs => by
    unfold splitAll Verif.Labels.cutAt
    rw [splitAll_eq c xs]
    rfl

theorem bracket_append {s : Str} (t : Str) (h : ']' ∉ s) : bracket (s ++ ']' :: t) = some (s ++ [']'], t) := by
  induction s with
  | nil => simp [bracket]
  | cons x xs ih =>
    simp only [List.mem_cons, not_or] at h
    simp only [List.cons_append, bracket]
    rw [if_neg (fun e => h.1 e.symm), ih h.2]
    rfl

/-! ### Parts -/

theorem parts_plain {t : Str} (h1 : ',' ∉ t) (h2 : '[' ∉ t) : ∀ (r acc : Str) (fuel : Nat), (t ++ r).length ≤ fuel →
    ∃ fuel', r.length ≤ fuel' ∧ parts fuel (t ++ r) acc = parts fuel' r (acc ++ t) := by
  induction t with
  | nil => intro r acc fuel hf; exact ⟨fuel, hf, by simp⟩
  | cons x xs ih =>
    intro r acc fuel hf
    simp only [List.mem_cons, not_or] at h1 h2
    cases fuel with
    | zero => simp at hf
    | succ fuel =>
      obtain ⟨fuel', h3, h4⟩ := ih h1.2 h2.2 r (acc ++ [x]) fuel (by simp only [List.cons_append, List.length_cons] at hf; omega)
      refine ⟨fuel', h3, ?_⟩
      simp only [List.cons_append, parts]
      rw [if_neg (fun e => h1.1 e.symm), if_neg (fun e => h2.1 e.symm), h4]
      simp

theorem parts_bracket {inside : Str} (h : ']' ∉ inside) (r acc : Str) {fuel : Nat} (hf : ('[' :: inside ++ ']' :: r).length ≤ fuel) :
    ∃ fuel', r.length ≤ fuel' ∧ parts fuel ('[' :: inside ++ ']' :: r) acc = parts fuel' r (acc ++ ('[' :: inside ++ [']'])) := by
  cases fuel with
  | zero => simp at hf
  | succ fuel =>
    refine ⟨fuel, by simp at hf; omega, ?_⟩
    simp only [List.cons_append, parts]
    rw [if_neg (by decide), if_pos trivial, bracket_append _ h]

end Verif.Nodes
