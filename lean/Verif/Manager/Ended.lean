import Verif.Manager.Sims
import Verif.Manager.Recorded
/-
Rows that become evaluated during the run.
-/
namespace Verif.History

/-- A row that an operation adds to the allocation is not marked as evaluated. -/
theorem apply_new_ended {h : Hist} (HL : LibInv h) (op : Op) (hg : Guarded h op) (i : Nat) (hi : h.rows.length ≤ i)
    (hi2 : i < (apply h op).1.rows.length) : cell (apply h op).1.rows i .simEnded = some (.s 0) := by
  have key : ∀ h : Hist, LibInv h → h.safeMode = true → h.rows.length ≤ i → i < (apply h op).1.rows.length →
      cell (apply h op).1.rows i .simEnded = some (.s 0) := by
    intro h HL hs hi hi2
    obtain ⟨w, d, ts, t, rfl, h1 | ⟨_, h1 | h1 | h1⟩⟩ := apply_new_protected hs op .simEnded (by simp [protectedFields]) i hi hi2
    · rw [h1, freshRow_lib _ (apply_lib HL _).scalar .simEnded (by simp [libEFields]) (by simp) (by simp) (by simp)]
    · exact absurd h1.1 (by simp)
    · exact absurd h1.1 (by simp)
    · exact absurd h1.1 (by simp)
  rcases hg with hs | hp
  · exact key h HL hs hi hi2
  · have h1 := key (h.withSafe true) ⟨HL.has, HL.scalar⟩ rfl hi
    rw [apply_safe h true op hp] at h1
    exact h1 hi2

end Verif.History

namespace Verif.Manager
open Verif.History Verif.Res Verif.Sched Verif.Alloc

variable {P : St → Reply → Prop}

/-- Row `i` is marked as evaluated. -/
def Ended (h : Hist) (i : Nat) : Prop := ∃ r, h.rows[i]? = some r ∧ r.flag .simEnded = true

theorem ended_cell {h : Hist} {i : Nat} : Ended h i ↔ ∃ v, cell h.rows i .simEnded = some v ∧ v ≠ .s 0 := by
  simp only [Ended, cell, Option.map_eq_some_iff, Row.flag, decide_eq_true_eq]
  constructor
  · rintro ⟨r, h1, h2⟩; exact ⟨_, ⟨r, h1, rfl⟩, h2⟩
  · rintro ⟨_, ⟨r, h1, rfl⟩, h2⟩; exact ⟨r, h1, h2⟩

/-- A row becomes evaluated only by the recording of a result of it. -/
theorem ended_step {c : Start} (hc : c.Std) {e : Ev} {pre : List Ev} (hk : OpsOk c (e :: pre)) {i : Nat}
    (h0 : ¬ Ended (histAt c.hist pre) i) (h1 : Ended (histAt c.hist (e :: pre)) i) :
    ∃ rows d t k, e = .op (.simReturn rows d t k) ∧ i ∈ rows := by
  by_cases ho : ∃ o, e = .op o
  · obtain ⟨o, rfl⟩ := ho
    obtain ⟨v, hv, hne⟩ := ended_cell.mp h1
    have hlt : i < (histAt c.hist (.op o :: pre)).rows.length := by
      rcases Nat.lt_or_ge i (histAt c.hist (.op o :: pre)).rows.length with h | h
      · exact h
      · simp only [cell] at hv; rw [List.getElem?_eq_none h] at hv; simp at hv
    rcases Nat.lt_or_ge i (histAt c.hist pre).rows.length with hl | hl
    · rcases histAt_step hc hk .simEnded (by simp [protectedFields]) i hl with h2 | h2
      · exact absurd (ended_cell.mpr ⟨v, by rw [← h2]; exact hv, hne⟩) h0
      · cases o with
        | simReturn rows d t k => exact ⟨rows, d, t, k, rfl, h2.1⟩
        | giveSim _ _ _ _ => obtain ⟨_, h6 | h6 | h6⟩ := h2 <;> exact absurd h6.1 (by simp)
        | giveGen _ _ => obtain ⟨_, h6 | h6⟩ := h2 <;> exact absurd h6.1 (by simp)
        | genReturn _ _ _ _ => obtain ⟨_, _, h6 | h6 | h6⟩ := h2 <;> exact absurd h6.1 (by simp)
        | requestCancel _ => exact h2.elim
        | markKill _ => exact absurd h2.2.1 (by simp)
    · rw [histAt_op] at hlt hv
      have := apply_new_ended (histAt_lib hc pre) o (by
        rcases hk o (by simp) with h | h
        · left; rw [histAt_safe]; exact h
        · exact .inr h) i hl hlt
      rw [this] at hv
      exact absurd (by simpa using hv.symm) hne
  · rw [histAt_skip _ _ (fun o hh => ho ⟨o, hh⟩)] at h1
    exact absurd h1 h0

/-- A row that becomes evaluated was marked as started before, with the worker that an order for it was sent to. -/
theorem ended_given {c : Start} (hc : c.Std) {p : Ph} {s : St} (h : Reach c.sp P c.st p s) (hk : OpsOk c s.tr) (hv : RecvOk s.tr)
    (hh : Honest s.tr) {post pre : List Ev} {e : Ev} (he : s.tr = post ++ e :: pre) {i : Nat}
    (h0 : ¬ Ended (histAt c.hist pre) i) (h1 : Ended (histAt c.hist (e :: pre)) i) :
    ∃ w d t k pre', e = .op (.simReturn d.rows d.out.array t k) ∧ pre = .recv w (.data d) :: pre' ∧ i ∈ d.rows ∧
      (∃ key0 : Nat, SentTo pre w key0 i) ∧
      cell (histAt c.hist pre).rows i .simStarted = some (.s 1) ∧
      ∃ (key q : Nat), wPos c.sp.gom c.st.W.length key = some q ∧ SentTo pre (idAt c.sp q) key i ∧
        cell (histAt c.hist pre).rows i .simWorker = some (.s key) := by
  obtain ⟨rows, d, t, k, rfl, hi⟩ := ended_step hc (OpsOk.suffix (l := post) (by rw [← he]; exact hk)) h0 h1
  obtain ⟨w, m, pre', h2, h3, h4⟩ := h.recF start_tr post _ pre he rfl
  cases m with
  | data d' =>
    obtain ⟨hsim, rfl, rfl⟩ := h3
    obtain ⟨key0, hs⟩ := hh (post ++ [.op (.simReturn d'.rows d'.out.array t k)]) w d' pre' (by rw [he, h2]; simp) hsim i hi
    have hs' : SentTo pre w key0 i := by rw [h2]; exact SentTo.append (l := [_]) hs
    obtain ⟨g1, g2⟩ := sent_cells hc h hk hv (post := post ++ [.op (.simReturn d'.rows d'.out.array t k)]) (pre := pre)
      (by rw [he]; simp) hs' (by simp)
    exact ⟨w, d', t, k, pre', rfl, h2, hi, ⟨key0, hs'⟩, g1, g2⟩
  | _ => exact h3.elim

end Verif.Manager
