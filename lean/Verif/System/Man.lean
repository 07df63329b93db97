import Verif.System.Tick
/-
An event of the manager keeps the stages (helper for Props.lean).
-/
namespace Verif.System
open Verif Verif.Worker

variable {env : Env} {v : Manager.View} {fl : Bool} {L : List Msg} {ph : Ph} {tr : List Ev} {Q : List (List Ev × Out)}

theorem Inv.mono (I : Inv env v fl L ph tr Q) {fl' : Bool} (h : fl = true → fl' = true) : Inv env v fl' L ph tr Q := by
  cases I with
  | rest h => exact .rest h
  | plain h => exact .plain h
  | pers x => exact .pers { x with fin := fun hs => h (x.fin hs) }
  | closing x => exact .closing { x with rcv := fun hs => h (x.rcv hs) }

theorem Inv.signal (I : Inv env v fl L ph tr Q) {m : Msg} (hm : ∀ o, m.2 ≠ .work o) (hp : m ≠ pst) : Inv env v fl (L ++ [m]) ph tr Q := by
  have ho : ords (L ++ [m]) = ords L := by rw [ords_append, ords_cons hm, ords_nil, List.append_nil]
  have hin : pst ∈ L ++ [m] ↔ pst ∈ L := by
    rw [List.mem_append, List.mem_singleton]; exact ⟨fun h => h.resolve_right (fun h => hp h.symm), .inl⟩
  cases I with
  | rest h => exact .rest { h with ords := by rw [ho]; exact h.ords }
  | plain h => exact .plain ⟨h.v, by rw [ho]; exact h.at'⟩
  | closing h => exact .closing { h with ords := by rw [ho]; exact h.ords }
  | pers h =>
    exact .pers { per := h.per, loc := by rw [ho]; exact h.loc, q := h.q, cnt := by rw [ho]; exact h.cnt, rcv := by rw [ho]; exact h.rcv, arr := by rw [ho]; exact h.arr, stp := by rw [hin]; exact h.stp, aft1 := by rw [ho]; exact h.aft1, aft2 := ords_dw_append hm h.aft2, fin := h.fin }

/-- The persistent stop. -/
theorem Inv.pstop (I : Inv env v fl L ph tr Q) (hfl : fl = true) (hper : v.persis ≠ 0) :
    Inv env { v with busy := true, stopped := true } fl (L ++ [pst]) ph tr Q := by
  have ho : ords (L ++ [pst]) = ords L := by rw [ords_append, ords_cons pst_not_work, ords_nil, List.append_nil]
  cases I with
  | rest h => rw [h.v] at hper; exact absurd rfl hper
  | plain h => rw [h.v] at hper; exact absurd rfl hper
  | closing h =>
    obtain ⟨Q0, pre, o, s, r, h1, h2, h3, h4, _⟩ := h.q
    exact .closing { per := h.per, busy := rfl, ph := h.ph, ords := by rw [ho]; exact h.ords, q := ⟨Q0, pre, o, s, r, h1, h2, h3, h4, .inr (.inl rfl)⟩, rcv := fun _ => hfl }
  | pers h =>
    refine .pers { per := h.per, loc := by rw [ho]; exact h.loc, q := h.q, cnt := ?_, rcv := ?_, arr := by rw [ho]; exact h.arr, stp := ?_, aft1 := by rw [ho]; exact h.aft1, aft2 := ords_dw_append pst_not_work h.aft2, fin := fun _ => hfl }
    · rw [ho]
      intro hr
      exact ⟨(h.cnt hr).1, by simp⟩
    · rw [ho]
      intro hr
      exact ⟨rfl, (h.rcv hr).2⟩
    · simp

/-- An order. -/
theorem Inv.order (I : Inv env v fl L ph tr Q) {t : Nat} {o : Order} {n : Nat} (hn : n ≠ 0) (hfl : fl = false) (hp : pst ∉ L)
    {ar : Bool} (hb : v.busy = false ∨ (v.recv = true ∧ ar = true)) (har : ar = true → o.persistent = true) (hoar : o.activeRecv = true → ar = true) :
    Inv env { v with busy := true, recv := v.recv || (o.persistent && o.activeRecv), persis := if o.persistent then n else v.persis } fl
      (L ++ [(t, .work o)]) ph tr Q := by
  have ho : ords (L ++ [(t, .work o)]) = ords L ++ [o] := by rw [ords_append, ords_work, ords_nil]
  have hne : ((t, .work o) : Msg) ≠ pst := by intro h; simp [pst] at h
  have hin : pst ∉ L ++ [(t, .work o)] := by
    rw [List.mem_append, List.mem_singleton, not_or]; exact ⟨hp, fun h => hne h.symm⟩
  have h2 : ords ((L ++ [((t, .work o) : Msg)]).dropWhile (· ≠ pst)) = [] := by rw [dw_append_ne hne hp]; rfl
  cases I with
  | rest h =>
    obtain ⟨rfl, rfl, h3, rfl⟩ := h
    cases hop : o.persistent with
    | false =>
      refine .plain ⟨?_, .inl ⟨rfl, rfl, o, by rw [ho, h3]; rfl, hop⟩⟩
      simp
    | true =>
      refine .pers { per := by simpa using hn, loc := .inl ⟨rfl, o, [], by rw [ho, h3]; rfl, hop⟩, q := fun x hx => (by cases hx), cnt := ?_, rcv := ?_, arr := ?_, stp := ?_, aft1 := ?_, aft2 := h2, fin := ?_ }
      · intro hr
        rw [ho, h3]
        simp [owe, nAns]
      · intro hr
        refine ⟨rfl, .inr ⟨rfl, o, [], by rw [ho, h3]; rfl, by simpa using hr⟩⟩
      · rw [ho, h3]
        rintro (h | ⟨o', h, h'⟩)
        · cases h
        · simp only [List.nil_append, List.mem_singleton] at h; subst h; simpa using h'
      · simp only [Bool.false_eq_true, false_iff, not_or]
        exact ⟨by simp [phTold], hin⟩
      · intro h; cases h
      · intro h; cases h
  | plain h =>
    rw [h.v] at hb
    rcases hb with h | ⟨h, _⟩ <;> cases h
  | closing h =>
    rcases hb with h' | ⟨h', _⟩
    · rw [h.busy] at h'; cases h'
    · have := h.rcv h'; rw [hfl] at this; cases this
  | pers h =>
    have hst : v.stopped = false := by
      cases hs : v.stopped with
      | false => rfl
      | true => have := h.fin hs; rw [hfl] at this; cases this
    have hnt : phTold ph tr ≠ true := fun h' => by have := h.stp.mpr (.inl h'); rw [hst] at this; cases this
    refine .pers { per := ?_, loc := ?_, q := h.q, cnt := ?_, rcv := ?_, arr := ?_, stp := ?_, aft1 := fun h => absurd h hnt, aft2 := h2, fin := h.fin }
    · simp only; split
      · exact hn
      · exact h.per
    · rcases h.loc with ⟨a, o', rest, b, c⟩ | h
      · exact .inl ⟨a, o', rest ++ [o], by rw [ho, b]; rfl, c⟩
      · exact .inr h
    · intro hr
      simp only [Bool.or_eq_false_iff] at hr
      rcases hb with hb | ⟨hb, _⟩
      · have := h.cnt hr.1
        have hz : (ords L).length + owe env ph tr + nAns env Q = 0 := by
          have h1 := this.1
          have h2 : ¬ ((ords L).length + owe env ph tr + nAns env Q = 1) := fun h' => by
            have := this.2.mpr (.inl h'); rw [hb] at this; cases this
          omega
        rw [ho, List.length_append, List.length_singleton]
        refine ⟨by omega, ?_⟩
        simp only [true_iff]
        left; omega
      · rw [hr.1] at hb; cases hb
    · intro hr
      refine ⟨rfl, ?_⟩
      cases hvr : v.recv with
      | true =>
        rcases (h.rcv hvr).2 with h' | ⟨a, o', rest, b, c⟩
        · exact .inl h'
        · exact .inr ⟨a, o', rest ++ [o], by rw [ho, b]; rfl, c⟩
      | false =>
        simp only [hvr, Bool.false_or, Bool.and_eq_true] at hr
        rcases hb with hb | ⟨hb, _⟩
        · have := h.cnt hvr
          have hz : (ords L).length + owe env ph tr + nAns env Q = 0 := by
            have h1 := this.1
            have h2 : ¬ ((ords L).length + owe env ph tr + nAns env Q = 1) := fun h' => by
              have := this.2.mpr (.inl h'); rw [hb] at this; cases this
            omega
          have hl : ords L = [] := List.eq_nil_of_length_eq_zero (by omega)
          exact .inr ⟨by omega, o, [], by rw [ho, hl]; rfl, hr.2⟩
        · rw [hvr] at hb; cases hb
    · rw [ho]
      simp only [Bool.or_eq_true, Bool.and_eq_true]
      rintro (h' | ⟨o', h', h''⟩)
      · exact .inl (h.arr (.inl h'))
      · rcases List.mem_append.mp h' with h' | h'
        · exact .inl (h.arr (.inr ⟨o', h', h''⟩))
        · rw [List.mem_singleton] at h'; subst h'
          exact .inr ⟨har (hoar h''), h''⟩
    · rw [hst]
      simp only [Bool.false_eq_true, false_iff, not_or]
      exact ⟨hnt, hin⟩

/-- A message is received. -/
theorem Inv.recv (I : Inv env v fl L ph tr Q) {pre : List Ev} {x : Out} {rest : List (List Ev × Out)} {m : Manager.Msg}
    (hq : Q = (pre, x) :: rest) (hs : Says env pre x m) (w : Nat) :
    Inv env (v.step w fl false (.recv w m)) fl L ph tr rest := by
  have hdata : ∀ {v : Manager.View}, GoesOn env (pre, x) → v.persis ≠ 0 → (v.step w fl false (.recv w m)).persis ≠ 0 ∧
      (v.step w fl false (.recv w m)).recv = v.recv ∧ (v.step w fl false (.recv w m)).stopped = v.stopped ∧
      (v.step w fl false (.recv w m)).busy = (v.busy && !(!v.recv && !v.stopped && isAnswer env x)) := by
    rintro v ⟨n, hx, hf, hi⟩ hv
    simp only at hx hi; subst hx
    cases m with
    | data d =>
      obtain ⟨hd, ht⟩ := hs
      subst hd
      have hf' : Manager.Data.isFinished { env.msg n with rows := hRows pre, persistent := inPersis pre } = false := hf
      simp only [Manager.View.step, if_true, hf', Bool.false_eq_true, if_false, Bool.false_or, isAnswer]
      refine ⟨?_, trivial, trivial, trivial⟩
      split
      · rcases ht with h | h <;> (simp only at h; rw [h]; decide)
      · exact hv
    | err => exact hs.elim
    | finished => exact hs.elim
    | log => exact hs.elim
  have hans : ∀ {o s r}, x = .answer o s r → ∃ out, m = .data { calcType := o.tag, calcStatus := s.toNat, rows := hRows pre, persistent := o.persistent, out := out } := by
    rintro o s r rfl
    cases m with
    | data d => obtain ⟨out, hd⟩ := hs; exact ⟨out, by rw [hd]⟩
    | err => exact hs.elim
    | finished => exact hs.elim
    | log => exact hs.elim
  cases I with
  | rest h => rw [h.q] at hq; cases hq
  | plain h =>
    rcases h.at' with ⟨_, h', _⟩ | ⟨_, _, h'⟩ | ⟨hp, ho, pre', o, s, r, h', hop⟩
    · rw [h'] at hq; cases hq
    · rw [h'] at hq; cases hq
    · rw [h'] at hq
      simp only [List.cons.injEq, Prod.mk.injEq] at hq
      obtain ⟨⟨rfl, rfl⟩, rfl⟩ := hq
      obtain ⟨out, rfl⟩ := hans rfl
      refine .rest ⟨?_, hp, ho, rfl⟩
      rw [h.v]
      simp only [Manager.View.step, if_true, hop, Bool.false_and, Bool.false_eq_true, if_false]
      split <;> rfl
  | closing h =>
    obtain ⟨Q0, pre', o, s, r, h1, h2, h3, h4, h5⟩ := h.q
    cases Q0 with
    | nil =>
      rw [h1] at hq
      simp only [List.nil_append, List.cons.injEq, Prod.mk.injEq] at hq
      obtain ⟨⟨rfl, rfl⟩, rfl⟩ := hq
      obtain ⟨out, rfl⟩ := hans rfl
      refine .rest ⟨?_, h.ph, h.ords, rfl⟩
      simp only [Manager.View.step, if_true, Manager.Data.isFinished]
      rcases h3 with rfl | rfl <;> simp [Manager.FINISHED_PERSISTENT_SIM, Manager.FINISHED_PERSISTENT_GEN]
    | cons y Q1 =>
      rw [h1] at hq
      simp only [List.cons_append, List.cons.injEq] at hq
      obtain ⟨rfl, rfl⟩ := hq
      obtain ⟨a, b, c, d⟩ := hdata (h4 _ List.mem_cons_self) h.per
      refine .closing { per := a, busy := ?_, ph := h.ph, ords := h.ords, q := ⟨Q1, pre', o, s, r, rfl, h2, h3, fun x hx => h4 x (List.mem_cons_of_mem _ hx), ?_⟩, rcv := by rw [b]; exact h.rcv }
      · rw [d, h.busy]
        rcases h5 with h5 | h5 | h5
        · simp [h5]
        · simp [h5]
        · simp only [nAns, List.countP_cons] at h5
          cases hx : isAnswer env x with
          | false => simp
          | true => simp [hx] at h5
      · rw [b, c]
        rcases h5 with h5 | h5 | h5
        · exact .inl h5
        · exact .inr (.inl h5)
        · refine .inr (.inr ?_)
          simp only [nAns, List.countP_cons] at h5 ⊢
          omega
  | pers h =>
    subst hq
    obtain ⟨a, b, c, d⟩ := hdata (h.q _ List.mem_cons_self) h.per
    have hn : nAns env ((pre, x) :: rest) = nAns env rest + (if isAnswer env x = true then 1 else 0) := by
      simp only [nAns, List.countP_cons]
    refine .pers { per := a, loc := h.loc, q := fun x hx => h.q x (List.mem_cons_of_mem _ hx), cnt := ?_, rcv := ?_, arr := by rw [b]; exact h.arr, stp := by rw [c]; exact h.stp, aft1 := h.aft1, aft2 := h.aft2, fin := by rw [c]; exact h.fin }
    · rw [b, c, d]
      intro hr
      obtain ⟨h1, h2⟩ := h.cnt hr
      rw [hn] at h1 h2
      refine ⟨by omega, ?_⟩
      rw [hr]
      cases hst : v.stopped with
      | true =>
        have := h2.mpr (.inr hst)
        simp [this]
      | false =>
        rw [hst] at h2
        cases hx : isAnswer env x with
        | false => simpa [hx] using h2
        | true =>
          simp only [hx, if_true] at h1 h2
          simp only [Bool.not_false, Bool.and_self, Bool.not_true, Bool.and_false, Bool.false_eq_true, or_false, false_iff]
          omega
    · rw [b, d]
      intro hr
      refine ⟨?_, (h.rcv hr).2⟩
      rw [(h.rcv hr).1, hr]; rfl

end Verif.System
