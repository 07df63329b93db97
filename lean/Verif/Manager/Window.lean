import Verif.Manager.Fine
import Verif.Manager.Ended
/-
Marks and counters that `_kill_cancelled_sims` reads.
-/
namespace Verif.History

theorem maxNat_ge {l : List Nat} {i : Nat} (h : i ∈ l) : i ≤ maxNat l := by
  induction l with
  | nil => simp at h
  | cons x l ih =>
    simp only [maxNat]
    rcases List.mem_cons.mp h with rfl | h
    · omega
    · have := ih h; omega

theorem maxNat_lt {l : List Nat} {n : Nat} (hne : l ≠ []) (h : ∀ i ∈ l, i < n) : maxNat l < n := by
  induction l with
  | nil => exact absurd rfl hne
  | cons x l ih =>
    simp only [maxNat]
    have h1 := h x List.mem_cons_self
    by_cases hl : l = []
    · subst hl; simp only [maxNat]; omega
    · have := ih hl (fun i hi => h i (List.mem_cons_of_mem _ hi)); omega

/-- The search window lies within the array. -/
def WinOk (h : Hist) : Prop := -1 ≤ h.lastEnded ∧ h.lastStarted < h.rows.length

theorem advanceEnded_ge (rows : List Row) (n j : Nat) (le : Int) : le ≤ advanceEnded rows n j le := by
  induction n generalizing j le with
  | zero => exact Int.le_refl _
  | succ n ih =>
    simp only [advanceEnded]
    split
    · exact Int.le_refl _
    · split
      · have := ih (j + 1) (le + 1); omega
      · exact Int.le_refl _

/-- Rows passed over are evaluated. -/
theorem advanceEnded_ended (rows : List Row) (n j : Nat) (le : Int) (hj : (j : Int) = le + 1) (i : Nat)
    (h1 : j ≤ i) (h2 : (i : Int) ≤ advanceEnded rows n j le) : ∃ r, rows[i]? = some r ∧ r.flag .simEnded = true := by
  induction n generalizing j le with
  | zero => simp only [advanceEnded] at h2; omega
  | succ n ih =>
    simp only [advanceEnded] at h2
    split at h2
    · omega
    · rename_i r hr
      split at h2
      · rename_i hf
        by_cases hij : i = j
        · subst hij; exact ⟨r, hr, hf⟩
        · exact ih (j + 1) (le + 1) (by omega) (by omega) h2
      · omega

theorem extendCols_lasts (h : Hist) (cs : List (Field × Shape)) :
    (extendCols h cs).lastEnded = h.lastEnded ∧ (extendCols h cs).lastStarted = h.lastStarted := by
  simp only [extendCols]
  split <;> exact ⟨rfl, rfl⟩

theorem preSim_lasts (h : Hist) (d : Option Rec) :
    (preSim h d).lastEnded = h.lastEnded ∧ (preSim h d).lastStarted = h.lastStarted := by
  cases d with
  | none => exact ⟨rfl, rfl⟩
  | some d => exact extendCols_lasts h d.cols

theorem apply_lasts (h : Hist) (o : Op) :
    ((∀ r d t k, o ≠ .simReturn r d t k) → (apply h o).1.lastEnded = h.lastEnded) ∧
    ((∀ r w t k, o ≠ .giveSim r w t k) → (apply h o).1.lastStarted = h.lastStarted) := by
  cases o with
  | simReturn inds d t k =>
    refine ⟨fun hne => absurd rfl (hne _ _ _ _), fun _ => ?_⟩
    obtain ⟨e, le, heq, _⟩ := updateF_shape h inds d t k
    simp only [apply]
    rw [heq]
    have hf := simRows_frame t d 0 inds (preSim h d)
    simp only
    rw [hf.2.2.2.2.1]
    exact (preSim_lasts h d).2
  | giveSim inds w t k =>
    refine ⟨fun _ => ?_, fun hne => absurd rfl (hne _ _ _ _)⟩
    simp only [apply, updateXOut]
    split
    · rfl
    · split
      · split <;> rfl
      · rfl
  | giveGen inds t =>
    simp only [apply, updateToGen]
    split
    · exact ⟨fun _ => rfl, fun _ => rfl⟩
    · split <;> exact ⟨fun _ => rfl, fun _ => rfl⟩
  | genReturn w d ts t =>
    have key : ∀ (h : Hist) inds n, (genFinish h w d ts t inds n).1.lastEnded = h.lastEnded ∧
        (genFinish h w d ts t inds n).1.lastStarted = h.lastStarted := by
      intro h inds n
      simp only [genFinish]
      split <;> exact ⟨rfl, rfl⟩
    have kr : ∀ (h : Hist) n, (ensureRoom h n).lastEnded = h.lastEnded ∧ (ensureRoom h n).lastStarted = h.lastStarted := by
      intro h n
      simp only [ensureRoom]
      split <;> exact ⟨rfl, rfl⟩
    have ke : (extendCols h d.cols).lastEnded = h.lastEnded ∧ (extendCols h d.cols).lastStarted = h.lastStarted := extendCols_lasts h d.cols
    have hall : (updateXIn h w d ts t).1.lastEnded = h.lastEnded ∧ (updateXIn h w d ts t).1.lastStarted = h.lastStarted := by
      simp only [updateXIn]
      split
      · exact ⟨rfl, rfl⟩
      · split
        · exact ⟨(key _ _ _).1.trans ((kr (extendCols h d.cols) d.rows.length).1.trans ke.1),
            (key _ _ _).2.trans ((kr (extendCols h d.cols) d.rows.length).2.trans ke.2)⟩
        · split
          · split
            · exact ⟨(kr _ _).1.trans ke.1, (kr _ _).2.trans ke.2⟩
            · exact ⟨((key _ _ _).1.trans (kr _ _).1).trans ke.1, ((key _ _ _).2.trans (kr _ _).2).trans ke.2⟩
          · exact ke
    exact ⟨fun _ => hall.1, fun _ => hall.2⟩
  | requestCancel rows => exact ⟨fun _ => rfl, fun _ => rfl⟩
  | markKill rows => exact ⟨fun _ => rfl, fun _ => rfl⟩

/-- `last_started` after a hand-out. -/
theorem apply_giveSim_last (h : Hist) (inds : List Nat) (w : Nat) (t : Int) (k : Bool) :
    (apply h (.giveSim inds w t k)).1.lastStarted = h.lastStarted ∨
    ((apply h (.giveSim inds w t k)).1.lastStarted = (maxNat inds : Int) ∧ inds ≠ [] ∧ ∀ i ∈ inds, i < h.rows.length) := by
  simp only [apply, updateXOut]
  split
  · exact .inl rfl
  · rename_i hin
    split
    · split
      · exact .inl rfl
      · rename_i hne
        refine .inr ⟨rfl, by simpa using hne, fun i hi => ?_⟩
        simp only [List.any_eq_true, decide_eq_true_eq, not_exists, not_and] at hin
        have := hin i hi; omega
    · exact .inl rfl

theorem apply_giveSim_last_ok (h : Hist) (inds : List Nat) (w : Nat) (t : Int)
    (hok : (apply h (.giveSim inds w t true)).2 = none) :
    (apply h (.giveSim inds w t true)).1.lastStarted = (maxNat inds : Int) ∧ inds ≠ [] := by
  simp only [apply, updateXOut] at hok ⊢
  split at hok
  · cases hok
  · rename_i hin
    rw [if_neg hin]
    simp only [if_true] at hok ⊢
    split at hok
    · cases hok
    · rename_i hne
      rw [if_neg hne]
      exact ⟨rfl, by simpa using hne⟩

/-- `last_ended` after a return. -/
theorem apply_simReturn_last (h : Hist) (inds : List Nat) (d : Option Rec) (t : Int) (k : Bool) :
    (apply h (.simReturn inds d t k)).1.lastEnded = h.lastEnded ∨
    ∃ n, (apply h (.simReturn inds d t k)).1.lastEnded =
      advanceEnded (apply h (.simReturn inds d t k)).1.rows n (h.lastEnded + 1).toNat h.lastEnded := by
  have hle : (simRows t d 0 inds (preSim h d)).1.lastEnded = h.lastEnded := by
    have hf := simRows_frame t d 0 inds (preSim h d)
    rw [hf.2.2.2.2.2.1]
    exact (preSim_lasts h d).1
  simp only [apply, updateF]
  generalize simRows t d 0 inds (preSim h d) = x at hle
  obtain ⟨h2, e⟩ := x
  cases e with
  | some e => exact .inl hle
  | none =>
    simp only at hle ⊢
    split
    · split
      · exact .inl hle
      · refine .inr ⟨maxNat inds + 1 - (h2.lastEnded + 1).toNat, ?_⟩
        simp only [hle]
    · exact .inl hle

theorem apply_winOk {h : Hist} (H : WinOk h) (o : Op) : WinOk (apply h o).1 := by
  have hl := (apply_struct h o).2.1
  refine ⟨?_, ?_⟩
  · by_cases ho : ∃ r d t k, o = .simReturn r d t k
    · obtain ⟨r, d, t, k, rfl⟩ := ho
      rcases apply_simReturn_last h r d t k with h1 | ⟨n, h1⟩
      · rw [h1]; exact H.1
      · rw [h1]
        have := advanceEnded_ge (apply h (.simReturn r d t k)).1.rows n (h.lastEnded + 1).toNat h.lastEnded
        have := H.1
        omega
    · rw [(apply_lasts h o).1 (fun r d t k he => ho ⟨r, d, t, k, he⟩)]; exact H.1
  · by_cases ho : ∃ r w t k, o = .giveSim r w t k
    · obtain ⟨r, w, t, k, rfl⟩ := ho
      rcases apply_giveSim_last h r w t k with h1 | ⟨h1, hne, hlt⟩
      · rw [h1]; have := H.2; omega
      · rw [h1]; have := maxNat_lt hne hlt; omega
    · rw [(apply_lasts h o).2 (fun r w t k he => ho ⟨r, w, t, k, he⟩)]; have := H.2; omega

/-- A row that an operation adds to the allocation is marked neither as started nor as killed nor as given back. -/
theorem apply_new_flag {h : Hist} (HL : LibInv h) (op : Op) (hg : Guarded h op) (g : Field)
    (hgf : g = .simStarted ∨ g = .simEnded ∨ g = .killSent ∨ g = .genInformed) (i : Nat) (hi : h.rows.length ≤ i)
    (hi2 : i < (apply h op).1.rows.length) : cell (apply h op).1.rows i g = some (.s 0) := by
  have hp : g ∈ protectedFields := by rcases hgf with rfl | rfl | rfl | rfl <;> simp [protectedFields]
  have key : ∀ h : Hist, LibInv h → h.safeMode = true → h.rows.length ≤ i → i < (apply h op).1.rows.length →
      cell (apply h op).1.rows i g = some (.s 0) := by
    intro h HL hs hi hi2
    obtain ⟨w, d, ts, t, rfl, h1 | ⟨_, h1 | h1 | h1⟩⟩ := apply_new_protected hs op g hp i hi hi2
    · rw [h1, freshRow_lib _ (apply_lib HL _).scalar g (by rcases hgf with rfl | rfl | rfl | rfl <;> simp [libEFields])
        (by rcases hgf with rfl | rfl | rfl | rfl <;> simp) (by rcases hgf with rfl | rfl | rfl | rfl <;> simp)
        (by rcases hgf with rfl | rfl | rfl | rfl <;> simp)]
    · have := h1.1; rcases hgf with rfl | rfl | rfl | rfl <;> simp at this
    · have := h1.1; rcases hgf with rfl | rfl | rfl | rfl <;> simp at this
    · have := h1.1; rcases hgf with rfl | rfl | rfl | rfl <;> simp at this
  rcases hg with hs | hp
  · exact key h HL hs hi hi2
  · have h1 := key (h.withSafe true) ⟨HL.has, HL.scalar⟩ rfl hi
    rw [apply_safe h true op hp] at h1
    exact h1 hi2

end Verif.History
