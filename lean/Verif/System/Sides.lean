import Verif.System.Joint
/-
What the stages say about the view of the manager (helper for Props.lean).
-/
namespace Verif.System
open Verif Verif.Worker

variable {env : Env} {tr : List Manager.Ev} {ws : Nat → W}

theorem nAns_pos {Q : List (List Ev × Out)} : 0 < nAns env Q ↔ ∃ x ∈ Q, isAnswer env x.2 = true := List.countP_pos_iff

theorem Inv.busy_iff {v : Manager.View} {fl : Bool} {s : W} {w : Nat}
    (h : Inv env v fl (left s.chan) s.ph s.tr (onTheWay w tr s)) : v.busy = true ↔ Unanswered env w tr s := by
  unfold Unanswered
  cases h with
  | rest h => rw [h.v, h.ords, h.q]; simp [inCall, h.ph]
  | plain h =>
    rw [h.v]
    simp only [true_iff]
    rcases h.at' with ⟨_, _, o, h1, _⟩ | ⟨⟨o, h1, h2⟩, _, _⟩ | ⟨_, _, pre, o, s', r, h1, _⟩
    · left; rw [h1]; simp
    · right; left
      cases hp : s.ph <;> rw [hp] at h1 <;> simp only [phOrder, Option.some.injEq, reduceCtorEq] at h1 <;>
        simp [inCall, hp, h1, h2]
    · right; right; rw [h1]; exact ⟨_, List.mem_singleton.mpr rfl, rfl⟩
  | pers h =>
    cases hr : v.recv with
    | true =>
      obtain ⟨hb, h1⟩ := h.rcv hr
      rw [hb]; simp only [true_iff]
      rcases h1 with h1 | ⟨_, o, rest, h1, _⟩
      · right; left
        cases hp : s.ph <;> rw [hp] at h1 <;> simp only [phAr, Bool.false_eq_true] at h1 <;> simp [inCall, hp, h1]
      · left; rw [h1]; simp
    | false =>
      obtain ⟨_, hb⟩ := h.cnt hr
      have hle := (h.cnt hr).1
      rw [hb, h.stp, ← nAns_pos]
      have hl : ords (left s.chan) ≠ [] ↔ 0 < (ords (left s.chan)).length := by
        rw [List.length_pos_iff]
      rw [hl]
      rcases h.loc with ⟨hp, o, rest, h1, _⟩ | ⟨o, h1, h2⟩
      · rw [h1]; simp only [List.length_cons, Nat.zero_lt_succ, true_or, iff_true]
        left
        rw [h1] at hle; simp only [List.length_cons] at hle
        omega
      · have hna : phAr s.ph s.tr = false := by
          cases ha : phAr s.ph s.tr with
          | false => rfl
          | true => rw [h.arr (.inl ha)] at hr; cases hr
        cases hp : s.ph <;> rw [hp] at h1 hle hna <;> simp only [phOrder, Option.some.injEq, reduceCtorEq] at h1
        case needRows => simp only [owe, inCall, hp] at hle ⊢; simp; omega
        all_goals
          subst h1
          simp only [phAr] at hna
          simp only [owe, inCall, hp, phTold, h2, hna, Bool.not_true, Bool.false_or, Bool.or_false, Bool.or_eq_true, decide_eq_true_eq] at hle ⊢
          cases ho : owes env s.tr <;> simp only [ho, if_true, if_false, Bool.false_eq_true, false_or, true_or] at hle ⊢
          · constructor
            · rintro (h | h)
              · by_cases h0 : 0 < (ords (left s.chan)).length
                · exact .inl h0
                · exact .inr (.inr (by omega))
              · exact .inr (.inl h)
            · rintro (h | h | h)
              · exact .inl (by omega)
              · exact .inr h
              · exact .inl (by omega)
          · constructor
            · intro _; exact .inr trivial
            · intro _; exact .inl (by omega)
  | closing h =>
    rw [h.busy]; simp only [true_iff]
    obtain ⟨Q0, pre, o, s', r, h1, _⟩ := h.q
    right; right; rw [h1]
    exact ⟨_, List.mem_append_right _ (List.mem_singleton.mpr rfl), rfl⟩

theorem Inv.persis_iff {v : Manager.View} {fl : Bool} {s : W} {w : Nat}
    (h : Inv env v fl (left s.chan) s.ph s.tr (onTheWay w tr s)) : v.persis ≠ 0 ↔ Persistent w tr s := by
  unfold Persistent
  cases h with
  | rest h => rw [h.v, h.ords, h.q, h.ph]; simp
  | plain h =>
    rw [h.v]
    simp only [ne_eq, not_true, false_iff]
    rcases h.at' with ⟨hp, hq, o, h1, h2⟩ | ⟨⟨o, h1, h2⟩, _, _⟩ | ⟨hp, h0, pre, o, s', r, h1, h2⟩
    · rw [hp, hq, h1]; simp [h2]
    · cases hp : s.ph <;> rw [hp] at h1 <;> simp only [phOrder, Option.some.injEq, reduceCtorEq] at h1 <;> simp [h1, h2]
    · rw [hp, h0, h1]
      rintro (⟨o', rest, h, _⟩ | ⟨x, hx, o', st, r', h, h'⟩)
      · cases h
      · rw [List.mem_singleton.mp hx] at h; cases h; rw [h2] at h'; cases h'
  | pers h =>
    refine ⟨fun _ => ?_, fun _ => h.per⟩
    rcases h.loc with ⟨hp, o, rest, h1, h2⟩ | ⟨o, h1, h2⟩
    · rw [hp]; exact .inl ⟨o, rest, h1, h2⟩
    · cases hp : s.ph <;> rw [hp] at h1 <;> simp only [phOrder, Option.some.injEq, reduceCtorEq] at h1 <;> simp [h1, h2]
  | closing h =>
    refine ⟨fun _ => ?_, fun _ => h.per⟩
    obtain ⟨Q0, pre, o, s', r, h1, h2, _⟩ := h.q
    rw [h.ph, h1]
    exact .inr ⟨_, List.mem_append_right _ (List.mem_singleton.mpr rfl), o, s', r, rfl, h2⟩

/-- Nothing is on the way or in the channel when the manager considers the worker idle and not persistent. -/
theorem Inv.at_rest {v : Manager.View} {fl : Bool} {s : W} {w : Nat}
    (h : Inv env v fl (left s.chan) s.ph s.tr (onTheWay w tr s)) (hb : v.busy = false) (hp : v.persis = 0) :
    s.ph = .idle ∧ ords (left s.chan) = [] ∧ onTheWay w tr s = [] := by
  cases h with
  | rest h => exact ⟨h.ph, h.ords, h.q⟩
  | plain h => rw [h.v] at hb; cases hb
  | pers h => exact absurd hp h.per
  | closing h => exact absurd hp h.per

end Verif.System
