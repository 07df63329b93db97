import Verif.History.StampInv
/-! What the operations do to the counters of the history. -/
namespace Verif.History

/-- The counters and what they started from. -/
structure Counters where
  started : Nat
  ended : Nat
  informed : Nat
  startedOff : Nat
  endedOff : Nat
  informedOff : Nat
deriving DecidableEq

def Hist.counters (h : Hist) : Counters :=
  ⟨h.simStartedCount, h.simEndedCount, h.genInformedCount, h.simStartedOffset, h.simEndedOffset, h.genInformedOffset⟩

theorem counters_extendCols (h : Hist) (cs) : (extendCols h cs).counters = h.counters := by
  unfold extendCols; split <;> rfl
theorem counters_preSim (h : Hist) (d : Option Rec) : (preSim h d).counters = h.counters := by
  cases d with
  | none => rfl
  | some d => exact counters_extendCols h d.cols
theorem counters_ensureRoom (h : Hist) (n) : (ensureRoom h n).counters = h.counters := by
  unfold ensureRoom; simp only; split <;> rfl
theorem counters_genFinish (h : Hist) (w d ts t inds n) : (genFinish h w d ts t inds n).1.counters = h.counters := by
  unfold genFinish; split <;> rfl

theorem counters_simRows (t : Int) (d : Option Rec) (j : Nat) (inds : List Nat) (h : Hist) :
    ∃ n, n ≤ inds.length ∧ (simRows t d j inds h).1.counters = { h.counters with ended := h.simEndedCount + n } ∧
      ((simRows t d j inds h).2 = none → n = inds.length) := by
  induction inds generalizing j h with
  | nil => exact ⟨0, Nat.le_refl _, rfl, fun _ => rfl⟩
  | cons i inds ih =>
    unfold simRows
    split
    · exact ⟨0, Nat.zero_le _, rfl, fun h => by simp at h⟩
    · split
      · exact ⟨0, Nat.zero_le _, rfl, fun h => by simp at h⟩
      · obtain ⟨n, h1, h2, h3⟩ := ih (j + 1) { h with
            rows := h.rows.set i _
            simEndedCount := h.simEndedCount + 1 }
        refine ⟨n + 1, by simp; omega, ?_, fun h => by simp [h3 h]⟩
        rw [h2]
        simp only [Hist.counters]
        congr 1
        omega

/-- The effect of every operation on the counters. -/
theorem apply_counters (h : Hist) (op : Op) :
    match op with
    | .simReturn rows _ _ _ => ∃ n, n ≤ rows.length ∧ (apply h op).1.counters = { h.counters with ended := h.simEndedCount + n } ∧
        ((apply h op).2 = none → n = rows.length)
    | .giveSim rows _ _ _ => (apply h op).1.counters =
        { h.counters with started := h.simStartedCount + if ∃ i ∈ rows, h.rows.length ≤ i then 0 else rows.length }
    | .giveGen rows _ => ∃ n, (apply h op).1.counters = { h.counters with informed := h.genInformedCount + n }
    | _ => (apply h op).1.counters = h.counters := by
  cases op with
  | simReturn rows d t k =>
    obtain ⟨n, h1, h2, h3⟩ := counters_simRows t d 0 rows (preSim h d)
    obtain ⟨e, le, heq, _, hn⟩ := updateF_shape h rows d t k
    have hc := counters_preSim h d
    refine ⟨n, h1, ?_, fun h => h3 (hn ?_)⟩
    · simp only [apply]
      rw [heq]
      show Hist.counters (simRows t d 0 rows (preSim h d)).1 = _
      rw [h2, hc]
      have : (preSim h d).simEndedCount = h.simEndedCount := congrArg Counters.ended hc
      rw [this]
    · simp only [apply] at h; rw [heq] at h; exact h
  | giveSim rows w t k =>
    simp only [apply]
    unfold updateXOut
    by_cases hb : ∃ i ∈ rows, h.rows.length ≤ i
    · have : rows.any (fun i => decide (h.rows.length ≤ i)) = true := by
        obtain ⟨i, hi, hl⟩ := hb
        exact List.any_eq_true.mpr ⟨i, hi, by simpa using hl⟩
      rw [if_pos this, if_pos hb]; rfl
    · have : ¬ rows.any (fun i => decide (h.rows.length ≤ i)) = true := by
        intro ha
        obtain ⟨i, hi, hl⟩ := List.any_eq_true.mp ha
        exact hb ⟨i, hi, by simpa using hl⟩
      rw [if_neg this, if_neg hb]
      simp only
      split
      · split <;> rfl
      · rfl
  | giveGen rows t =>
    simp only [apply]
    unfold updateToGen
    split
    · exact ⟨0, rfl⟩
    · split
      · exact ⟨0, rfl⟩
      · exact ⟨rows.length, rfl⟩
  | genReturn w d ts t =>
    simp only [apply]
    by_cases hne : d.rows.isEmpty = true
    · unfold updateXIn; rw [if_pos hne]
    · have hne' : d.rows.isEmpty = false := by simpa using hne
      rcases updateXIn_cases h w d ts t hne' with ⟨_, h3, hh3, heq⟩ | ⟨_, heq⟩ | ⟨_, n, heq⟩ | ⟨_, n, inds, _, heq⟩
      · rw [heq, counters_genFinish, hh3]
        show Hist.counters (ensureRoom (extendCols h d.cols) d.rows.length) = _
        rw [counters_ensureRoom, counters_extendCols]
      · rw [heq]; exact counters_extendCols h _
      · rw [heq]; simp only; rw [counters_ensureRoom, counters_extendCols]
      · rw [heq, counters_genFinish, counters_ensureRoom, counters_extendCols]
  | requestCancel rows => rfl
  | markKill rows => rfl

theorem apply_offsets (h : Hist) (op : Op) :
    (apply h op).1.simStartedOffset = h.simStartedOffset ∧ (apply h op).1.simEndedOffset = h.simEndedOffset ∧
    (apply h op).1.genInformedOffset = h.genInformedOffset := by
  have key : (apply h op).1.counters.startedOff = h.counters.startedOff ∧ (apply h op).1.counters.endedOff = h.counters.endedOff ∧
      (apply h op).1.counters.informedOff = h.counters.informedOff := by
    have := apply_counters h op
    cases op with
    | simReturn => obtain ⟨n, _, h2, _⟩ := this; rw [h2]; exact ⟨rfl, rfl, rfl⟩
    | giveSim => rw [this]; exact ⟨rfl, rfl, rfl⟩
    | giveGen => obtain ⟨n, h2⟩ := this; rw [h2]; exact ⟨rfl, rfl, rfl⟩
    | genReturn => rw [this]; exact ⟨rfl, rfl, rfl⟩
    | requestCancel => rw [this]; exact ⟨rfl, rfl, rfl⟩
    | markKill => rw [this]; exact ⟨rfl, rfl, rfl⟩
  exact key

theorem apply_started_count (h : Hist) (op : Op) (hop : ∀ r w t k, op ≠ .giveSim r w t k) :
    (apply h op).1.simStartedCount = h.simStartedCount := by
  have key : (apply h op).1.counters.started = h.counters.started := by
    have := apply_counters h op
    cases op with
    | simReturn => obtain ⟨n, _, h2, _⟩ := this; rw [h2]
    | giveSim => exact absurd rfl (hop _ _ _ _)
    | giveGen => obtain ⟨n, h2⟩ := this; rw [h2]
    | genReturn => rw [this]
    | requestCancel => rw [this]
    | markKill => rw [this]
  exact key

theorem apply_giveSim_count (h : Hist) (rows : List Nat) (w : Nat) (t : Int) (k : Bool) (hr : ∀ i ∈ rows, i < h.rows.length) :
    (apply h (.giveSim rows w t k)).1.simStartedCount = h.simStartedCount + rows.length := by
  have key : (apply h (.giveSim rows w t k)).1.counters.started = h.counters.started + rows.length := by
    have := apply_counters h (.giveSim rows w t k)
    simp only at this
    rw [this, if_neg (by rintro ⟨i, hi, hl⟩; have := hr i hi; omega)]
    rfl
  exact key

theorem apply_ended_count (h : Hist) (op : Op) (hop : ∀ r d t k, op ≠ .simReturn r d t k) :
    (apply h op).1.simEndedCount = h.simEndedCount := by
  have key : (apply h op).1.counters.ended = h.counters.ended := by
    have := apply_counters h op
    cases op with
    | simReturn => exact absurd rfl (hop _ _ _ _)
    | giveSim => rw [this]
    | giveGen => obtain ⟨n, h2⟩ := this; rw [h2]
    | genReturn => rw [this]
    | requestCancel => rw [this]
    | markKill => rw [this]
  exact key

theorem apply_simReturn_count (h : Hist) (rows : List Nat) (d : Option Rec) (t : Int) (k : Bool)
    (hok : (apply h (.simReturn rows d t k)).2 = none) :
    (apply h (.simReturn rows d t k)).1.simEndedCount = h.simEndedCount + rows.length := by
  have key : (apply h (.simReturn rows d t k)).1.counters.ended = h.counters.ended + rows.length := by
    obtain ⟨n, _, h2, h3⟩ := apply_counters h (.simReturn rows d t k)
    rw [h2, h3 hok]; rfl
  exact key

end Verif.History
