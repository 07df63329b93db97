/-
Safe mode makes no difference when the returned data carries no protected field.

`safe_mode` is off by default (specs.py:200).  All facts about protected fields that are proved under safe
mode therefore also hold in the default mode for user functions that do not return such fields.
-/
import Verif.History.Frame

namespace Verif.History

/-- Data without any protected field. -/
def Rec.polite (d : Rec) : Prop := ∀ f ∈ d.fields, f ∉ protectedFields

/-- The operation brings no protected field from a user function. -/
def Op.polite : Op → Prop
  | .simReturn _ (some d) _ _ => d.polite
  | .genReturn _ d _ _ => d.polite
  | _ => True

/-- The same history with the flag `safe_mode` set to `b`. -/
def Hist.withSafe (h : Hist) (b : Bool) : Hist := { h with safeMode := b }

theorem writeFields_safe (b c : Bool) (src : Row) (fs : List Field) :
    (∀ f ∈ fs, f ∉ protectedFields) → ∀ r, writeFields b src fs r = writeFields c src fs r := by
  induction fs with
  | nil => intro _ r; rfl
  | cons f fs ih =>
    intro hp r
    have h1 : decide (f ∈ protectedFields) = false := decide_eq_false (hp f (by simp))
    simp only [writeFields, h1, Bool.and_false, Bool.false_eq_true, if_false]
    split
    · rfl
    · exact ih (fun g hg => hp g (by simp [hg])) _

theorem simRowWrite_safe (b c : Bool) (d : Option Rec) (hp : ∀ d', d = some d' → d'.polite) (j : Nat)
    (r : Row) : simRowWrite b d j r = simRowWrite c d j r := by
  unfold simRowWrite
  split
  · rfl
  · split
    · rfl
    · split
      · rfl
      · exact writeFields_safe b c _ _ (hp _ rfl) _

theorem simRows_safe (t : Int) (d : Option Rec) (hp : ∀ d', d = some d' → d'.polite) (b : Bool)
    (inds : List Nat) : ∀ (j : Nat) (h : Hist),
    simRows t d j inds (h.withSafe b) = ((simRows t d j inds h).1.withSafe b, (simRows t d j inds h).2) := by
  induction inds with
  | nil => intro j h; rfl
  | cons ind inds ih =>
    intro j h
    simp only [simRows, Hist.withSafe]
    cases hr : h.rows[ind]? with
    | none => rfl
    | some r =>
      simp only
      rw [simRowWrite_safe b h.safeMode d hp j r]
      cases hw : simRowWrite h.safeMode d j r with
      | mk r' e =>
        cases e with
        | some e => rfl
        | none =>
          simp only
          exact ih (j + 1) { h with
            rows := h.rows.set ind ((r'.set .simEnded (.s 1)).set .simEndedTime (.s t))
            simEndedCount := h.simEndedCount + 1 }

theorem extendCols_safe (h : Hist) (b : Bool) (cs : List (Field × Shape)) :
    extendCols (h.withSafe b) cs = (extendCols h cs).withSafe b := by
  unfold extendCols Hist.withSafe appendNewFields
  simp only
  split <;> rfl

theorem ensureRoom_safe (h : Hist) (b : Bool) (n : Nat) :
    ensureRoom (h.withSafe b) n = (ensureRoom h n).withSafe b := by
  unfold ensureRoom Hist.withSafe growH
  simp only
  split <;> rfl

theorem preSim_safe (h : Hist) (b : Bool) (d : Option Rec) :
    preSim (h.withSafe b) d = (preSim h d).withSafe b := by
  cases d with
  | none => rfl
  | some d => exact extendCols_safe h b d.cols

theorem genColumns_safe (b c : Bool) (ps : List (Nat × Row)) (cs : List (Field × Shape)) :
    (∀ x ∈ cs, x.1 ∉ protectedFields) → ∀ rows, genColumns b ps cs rows = genColumns c ps cs rows := by
  induction cs with
  | nil => intro _ rows; rfl
  | cons x cs ih =>
    intro hp rows
    have h1 : decide (x.1 ∈ protectedFields) = false := decide_eq_false (hp x (by simp))
    simp only [genColumns, h1, Bool.and_false, Bool.false_eq_true, if_false]
    split
    · exact ih (fun g hg => hp g (by simp [hg])) _
    · rfl

theorem genFinish_safe (h : Hist) (b : Bool) (w : Nat) (d : Rec) (hp : d.polite) (ts t : Int) (inds : List Nat)
    (n : Nat) : genFinish (h.withSafe b) w d ts t inds n =
      ((genFinish h w d ts t inds n).1.withSafe b, (genFinish h w d ts t inds n).2) := by
  have h1 := genColumns_safe b h.safeMode (inds.zip d.rows) d.cols
    (fun x hx => hp x.1 (by unfold Rec.fields; exact List.mem_map_of_mem hx)) h.rows
  simp only [genFinish, Hist.withSafe, h1]
  cases genColumns h.safeMode (inds.zip d.rows) d.cols h.rows with
  | mk rows e => cases e <;> rfl

theorem updateXIn_safe (h : Hist) (b : Bool) (w : Nat) (d : Rec) (hp : d.polite) (ts t : Int) :
    updateXIn (h.withSafe b) w d ts t =
      ((updateXIn h w d ts t).1.withSafe b, (updateXIn h w d ts t).2) := by
  unfold updateXIn
  by_cases h1 : d.rows.isEmpty = true
  · simp [h1]
  · simp only [h1, extendCols_safe]
    generalize extendCols h d.cols = g
    by_cases h2 : Field.simId ∈ d.fields
    · simp only [h2, not_true_eq_false, if_false, ensureRoom_safe]
      simp only [Bool.false_eq_true, if_false]
      by_cases h3 : ((intRange g.index (maxInt (d.rows.map (·.sid)))).all
          (fun i => decide (i ∈ d.rows.map (·.sid)))) = true
      · have h3' : ((intRange (g.withSafe b).index (maxInt (d.rows.map (·.sid)))).all
          (fun i => decide (i ∈ d.rows.map (·.sid)))) = true := h3
        rw [if_pos h3, if_pos h3']
        have e1 : (g.withSafe b).rows = g.rows := rfl
        simp only [e1]
        generalize ensureRoom g _ = g2
        have e2 : (g2.withSafe b).rows = g2.rows := rfl
        rw [e2]
        cases hr : resolveAll g2.rows.length (d.rows.map (·.sid)) with
        | none => rfl
        | some inds => exact genFinish_safe g2 b w d hp ts t inds _
      · have h3' : ¬ ((intRange (g.withSafe b).index (maxInt (d.rows.map (·.sid)))).all
          (fun i => decide (i ∈ d.rows.map (·.sid)))) = true := h3
        rw [if_neg h3, if_neg h3']
    · simp only [h2, not_false_eq_true, if_true, ensureRoom_safe, Bool.false_eq_true, if_false]
      exact genFinish_safe { ensureRoom g d.rows.length with
        rows := numberRows (ensureRoom g d.rows.length).rows (ensureRoom g d.rows.length).index
          d.rows.length } b w d hp ts t _ _

/-- Safe mode is irrelevant for an operation that brings no protected field. -/
theorem apply_safe (h : Hist) (b : Bool) (op : Op) (hp : op.polite) :
    apply (h.withSafe b) op = ((apply h op).1.withSafe b, (apply h op).2) := by
  cases op with
  | simReturn inds d t k =>
    have hd : ∀ d', d = some d' → d'.polite := by intro d' e; subst e; exact hp
    simp only [apply, updateF, preSim_safe, simRows_safe t d hd b]
    cases simRows t d 0 inds (preSim h d) with
    | mk g e =>
      cases e with
      | some e => rfl
      | none =>
        simp only
        split
        · split <;> rfl
        · rfl
  | giveSim inds w t k =>
    show updateXOut (h.withSafe b) inds w t k = ((updateXOut h inds w t k).1.withSafe b, (updateXOut h inds w t k).2)
    by_cases h1 : (inds.any fun i => decide (h.rows.length ≤ i)) = true
    · have h2 : (inds.any fun i => decide ((h.withSafe b).rows.length ≤ i)) = true := h1
      rw [updateXOut, updateXOut, if_pos h1, if_pos h2]
    · have h2 : ¬ (inds.any fun i => decide ((h.withSafe b).rows.length ≤ i)) = true := h1
      rw [updateXOut, updateXOut, if_neg h1, if_neg h2]
      cases k
      · rfl
      · simp only [if_true]
        cases inds.isEmpty <;> rfl
  | giveGen inds t =>
    show updateToGen (h.withSafe b) inds t = ((updateToGen h inds t).1.withSafe b, (updateToGen h inds t).2)
    rw [updateToGen, updateToGen]
    cases inds.isEmpty
    · by_cases h1 : (inds.any fun i => decide (h.rows.length ≤ i)) = true
      · have h2 : (inds.any fun i => decide ((h.withSafe b).rows.length ≤ i)) = true := h1
        simp only [Bool.false_eq_true, if_false]
        rw [if_pos h1, if_pos h2]
      · have h2 : ¬ (inds.any fun i => decide ((h.withSafe b).rows.length ≤ i)) = true := h1
        simp only [Bool.false_eq_true, if_false]
        rw [if_neg h1, if_neg h2]
        rfl
    · rfl
  | genReturn w d ts t => exact updateXIn_safe h b w d hp ts t
  | requestCancel rows => rfl
  | markKill rows => rfl

/-- The user function cannot touch the protected fields: safe mode, or no such field in the data. -/
def Guarded (h : Hist) (op : Op) : Prop := h.safeMode = true ∨ op.polite

theorem withSafe_self (h : Hist) (b : Bool) (hb : h.safeMode = b) : h.withSafe b = h := by
  cases h; simp only [Hist.withSafe] at *; subst hb; rfl

/-- Anything about the effect of an operation that does not look at the flag can be proved in safe mode. -/
theorem apply_guarded (Q : Hist → Hist → Option HErr → Prop) (op : Op)
    (hq : ∀ h : Hist, h.safeMode = true → Q h (apply h op).1 (apply h op).2)
    (hfree : ∀ h h' e b c, Q (h.withSafe b) (h'.withSafe c) e → Q h h' e)
    (h : Hist) (hg : Guarded h op) : Q h (apply h op).1 (apply h op).2 := by
  rcases hg with hs | hp
  · exact hq h hs
  · have h1 := hq (h.withSafe true) rfl
    rw [apply_safe h true op hp] at h1
    exact hfree _ _ _ _ _ h1

/-- `apply_protected` without the flag. -/
theorem apply_protected' (h : Hist) (op : Op) (hgd : Guarded h op) (g : Field)
    (hg : g ∈ protectedFields) (hlib : ∀ f ∈ libEFields, f ∈ h.fields) (i : Nat) (hi : i < h.rows.length) :
    cell (apply h op).1.rows i g = cell h.rows i g ∨
    ProtectedChange h (apply h op).1 (apply h op).2 g i op := by
  rcases hgd with hs | hp
  · exact apply_protected h hs op g hg hlib i hi
  · have h1 := apply_protected (h.withSafe true) rfl op g hg hlib i hi
    rw [apply_safe h true op hp] at h1
    cases op <;> exact h1

end Verif.History
