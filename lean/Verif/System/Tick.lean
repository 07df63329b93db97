import Verif.System.Inv
/-
A step of a worker keeps the stages (helper for Props.lean).
-/
namespace Verif.System
open Verif Verif.Worker

variable {env : Env} {v : Manager.View} {fl : Bool}

theorem Inv.move {L L' : List Msg} {ph ph' : Ph} {tr tr' : List Ev} {Q : List (List Ev × Out)} (I : Inv env v fl L ph tr Q)
    (hi : ph ≠ .idle) (hp : phOrder ph' = phOrder ph) (ho : ords L' = ords L) (hw : owe env ph' tr' = owe env ph tr)
    (ha : phAr ph' tr' = phAr ph tr) (ht : (phTold ph' tr' = true ∨ pst ∈ L') ↔ (phTold ph tr = true ∨ pst ∈ L))
    (h1 : (phTold ph tr = true → ords L = []) → ords (L.dropWhile (· ≠ pst)) = [] → phTold ph' tr' = true → ords L' = [])
    (h2 : ords (L.dropWhile (· ≠ pst)) = [] → ords (L'.dropWhile (· ≠ pst)) = []) : Inv env v fl L' ph' tr' Q := by
  cases I with
  | rest h => exact absurd h.ph hi
  | closing h => exact absurd h.ph hi
  | plain h =>
    rcases h.at' with ⟨h, _⟩ | ⟨a, b, c⟩ | ⟨h, _⟩
    · exact absurd h hi
    · exact .plain ⟨h.v, .inr (.inl ⟨by rw [hp]; exact a, by rw [ho]; exact b, c⟩)⟩
    · exact absurd h hi
  | pers h =>
    refine .pers { per := h.per, loc := ?_, q := h.q, cnt := ?_, rcv := ?_, arr := ?_, stp := ?_, aft1 := ?_, aft2 := h2 h.aft2, fin := h.fin }
    · rcases h.loc with ⟨h, _⟩ | h
      · exact absurd h hi
      · right; rw [hp]; exact h
    · rw [ho, hw]; exact h.cnt
    · rw [ho, hw, ha]; exact h.rcv
    · rw [ho, ha]; exact h.arr
    · rw [ht]; exact h.stp
    · exact h1 h.aft1 h.aft2

theorem onEv_head {P : Ev → List Ev → Prop} {l : List Ev} {e : Ev} {tr : List Ev} (h : OnEv P (l ++ e :: tr)) : P e tr := h l e tr rfl

theorem outs_bs {w : W} {c : Comms.Chan Msg} {bs : List Ev} {u : UOut}
    (hc : (w.chan.buf = none ∧ c = w.chan ∧ bs = []) ∨ ∃ m, w.chan.buf = some m ∧ w.chan.recv = (c, some m) ∧ bs = [.buffered m]) :
    outs (bs ++ .ret u :: w.tr) = outs w.tr ∧ owes env (bs ++ .ret u :: w.tr) = owes env w.tr ∧
      arMode (bs ++ .ret u :: w.tr) = arMode w.tr ∧ told (bs ++ .ret u :: w.tr) = told w.tr := by
  rcases hc with ⟨_, _, rfl⟩ | ⟨m, _, _, rfl⟩ <;> exact ⟨rfl, rfl, rfl, rfl⟩

theorem owes_utook {m : Msg} (h : ∀ o, m.2 ≠ .work o) (tr : List Ev) :
    owes env (.utook m :: tr) = owes env tr ∧ arMode (.utook m :: tr) = arMode tr := by
  obtain ⟨t, b⟩ := m
  cases b with
  | work o => exact absurd rfl (h o)
  | _ => exact ⟨rfl, rfl⟩

theorem good_data {m : Msg} (h : Good m) {x : Nat} (hx : m.2 = .data x) : m = (0, .data 0) := by
  rcases h with ⟨t, o, rfl, _⟩ | h | rfl | rfl
  · cases hx
  · exact h
  · cases hx
  · cases hx

theorem told_utook {m : Msg} {tr : List Ev} : told (.utook m :: tr) = true ↔ m = pst ∨ told tr = true := by
  simp only [told, heard, decide_eq_true_eq, List.mem_cons]
  exact or_congr eq_comm Iff.rfl
theorem told_ptook {m : Msg} {tr : List Ev} : told (.ptook m :: tr) = true ↔ m = pst ∨ told tr = true := by
  simp only [told, heard, decide_eq_true_eq, List.mem_cons]
  exact or_congr eq_comm Iff.rfl
theorem told_utookRows {m : Msg} {tr : List Ev} : told (.utookRows m :: tr) = true ↔ m = pst ∨ told tr = true := by
  simp only [told, heard, decide_eq_true_eq, List.mem_cons]
  exact or_congr eq_comm Iff.rfl
theorem told_uback {m : Msg} {tr : List Ev} : told (.uback m :: tr) = told tr := rfl

theorem nAns_append (a b : List (List Ev × Out)) : nAns env (a ++ b) = nAns env a + nAns env b := List.countP_append

theorem inv_step {s s' : W} {Q : List (List Ev × Out)} (hs : Step s s') (I : Inv env v fl (left s.chan) s.ph s.tr Q)
    (hg : ∀ m ∈ left s.chan, Good m) (hF : Fine s) (hk : OnEv Kinds s'.tr) (hca : Careful s'.tr) (hd : Disciplined env s'.tr)
    (hnf : s'.ph ≠ .failed) : ∃ Qn, outs s'.tr = outs s.tr ++ Qn ∧ Inv env v fl (left s'.chan) s'.ph s'.tr (Q ++ Qn) := by
  have gd : ∀ {c m}, s.chan.recv = (c, some m) → Good m := fun h => hg _ (by rw [left_recv h]; exact List.mem_cons_self)
  have quiet : ∀ {x : W}, outs x.tr = outs s.tr → Inv env v fl (left x.chan) x.ph x.tr Q →
      ∃ Qn, outs x.tr = outs s.tr ++ Qn ∧ Inv env v fl (left x.chan) x.ph x.tr (Q ++ Qn) :=
    fun h1 h2 => ⟨[], by rw [h1, List.append_nil], by rw [List.append_nil]; exact h2⟩
  -- an order is taken by an idle worker
  have start : ∀ {c m o ph' tr'}, s.ph = .idle → s.chan.recv = (c, some m) → m.2 = .work o → phOrder ph' = some o →
      owe env ph' tr' = 1 → phAr ph' tr' = o.activeRecv → phTold ph' tr' = false → Inv env v fl (left c) ph' tr' Q := by
    intro c m o ph' tr' hp hc hm h1 h2 h3 h4
    have hL := left_recv hc
    obtain ⟨t, b⟩ := m
    simp only at hm; subst hm
    rw [hL, hp] at I
    cases I with
    | rest h => have := h.ords; rw [ords_work] at this; cases this
    | closing h => have := h.ords; rw [ords_work] at this; cases this
    | plain h =>
      rcases h.at' with ⟨_, hq, o', ho, hop⟩ | ⟨⟨o', ho, _⟩, _⟩ | ⟨_, ho, _⟩
      · rw [ords_work] at ho
        simp only [List.cons.injEq] at ho
        obtain ⟨rfl, ho⟩ := ho
        exact .plain ⟨h.v, .inr (.inl ⟨⟨_, h1, hop⟩, ho, hq⟩)⟩
      · cases ho
      · rw [ords_work] at ho; cases ho
    | pers h =>
      have hne : pst ≠ ((t, .work o) : Msg) := by intro h; simp [pst] at h
      have hin : pst ∈ ((t, .work o) : Msg) :: left c ↔ pst ∈ left c := by
        rw [List.mem_cons]; exact ⟨fun h => h.resolve_left hne, .inr⟩
      obtain ⟨o', rest, ho, hop⟩ : ∃ o' rest, ords ((t, .work o) :: left c) = o' :: rest ∧ o'.persistent = true := by
        rcases h.loc with ⟨_, h⟩ | ⟨o', ho, _⟩
        · exact h
        · cases ho
      rw [ords_work] at ho
      simp only [List.cons.injEq] at ho
      obtain ⟨rfl, ho⟩ := ho
      refine .pers { per := h.per, loc := .inr ⟨_, h1, hop⟩, q := h.q, cnt := ?_, rcv := ?_, arr := ?_, stp := ?_, aft1 := ?_, aft2 := ords_dw_tail h.aft2, fin := h.fin }
      · intro hr
        have := h.cnt hr
        rw [ords_work, List.length_cons, show owe env .idle s.tr = 0 from rfl] at this
        rw [h2]
        omega
      · intro hr
        refine ⟨(h.rcv hr).1, .inl ?_⟩
        rcases (h.rcv hr).2 with h' | ⟨_, o1, r1, h', h''⟩
        · cases h'
        · rw [ords_work] at h'
          simp only [List.cons.injEq] at h'
          obtain ⟨rfl, _⟩ := h'
          rw [h3]; exact h''
      · rw [h3]
        intro h'
        refine h.arr (.inr ?_)
        rw [ords_work]
        rcases h' with h' | ⟨o1, h1, h2⟩
        · exact ⟨_, List.mem_cons_self, h'⟩
        · exact ⟨o1, List.mem_cons_of_mem _ h1, h2⟩
      · rw [h4, h.stp, hin]
        simp [phTold]
      · rw [h4]; intro h; cases h
  -- something that is not an order is taken in a call
  have inCallStep : ∀ {L' : List Msg} {ph' : Ph} {tr' : List Ev}, s.ph ≠ .idle → phOrder ph' = phOrder s.ph → ords L' = ords (left s.chan) →
      owe env ph' tr' = owe env s.ph s.tr → phAr ph' tr' = phAr s.ph s.tr → (pst ∈ L' ↔ pst ∈ left s.chan) →
      (phTold ph' tr' = true ↔ phTold s.ph s.tr = true) → ((ords ((left s.chan).dropWhile (· ≠ pst)) = [] → ords (L'.dropWhile (· ≠ pst)) = [])) →
      Inv env v fl L' ph' tr' Q := by
    intro L' ph' tr' h1 h2 h3 h4 h5 h6 h7 h8
    exact I.move h1 h2 h3 h4 h5 (by rw [h6, h7]) (fun a _ b => by rw [h3]; exact a (h7.mp b)) h8
  cases hs with
  | stay => exact quiet rfl I
  | obs o rows h h' hp =>
    refine quiet rfl (inCallStep ?_ ?_ rfl ?_ ?_ Iff.rfl ?_ id) <;> simp [hp, phOrder, owe, phAr, phTold]
  | idleStop m c hp hc hm =>
    rcases gd hc with ⟨t, o, rfl, _⟩ | rfl | rfl | rfl
    · cases hm.2
    · cases hm.2
    · exact absurd hm.2 (by decide)
    · exact absurd hm.2 (by decide)
  | idleDrop m c hp hc hf hm =>
    have hL := left_recv hc
    have hno : ∀ o, m.2 ≠ .work o := by
      intro o ho
      rcases hm with hm | ⟨o', ho', hdr, _⟩
      · exact kill_not_work hm ho
      · rcases gd hc with ⟨t, o1, rfl, hn⟩ | rfl | rfl | rfl
        · cases ho'; exact hn hdr
        all_goals cases ho'
    have hords : ords (left s.chan) = ords (left c) := by rw [hL, ords_cons hno]
    refine quiet rfl ?_
    rw [hp] at I
    cases I with
    | rest h => exact .rest ⟨h.v, rfl, by rw [← hords]; exact h.ords, h.q⟩
    | closing h => exact .closing { per := h.per, busy := h.busy, ph := rfl, ords := by rw [← hords]; exact h.ords, q := h.q, rcv := h.rcv }
    | plain h =>
      rcases h.at' with ⟨_, hq, o, ho, hop⟩ | ⟨⟨o', ho, _⟩, _⟩ | ⟨_, ho, hq⟩
      · exact .plain ⟨h.v, .inl ⟨rfl, hq, o, by rw [← hords]; exact ho, hop⟩⟩
      · cases ho
      · exact .plain ⟨h.v, .inr (.inr ⟨rfl, by rw [← hords]; exact ho, hq⟩)⟩
    | pers h =>
      obtain ⟨o', rest, ho, hop⟩ : ∃ o' rest, ords (left s.chan) = o' :: rest ∧ o'.persistent = true := by
        rcases h.loc with ⟨_, h⟩ | ⟨o', ho, _⟩
        · exact h
        · cases ho
      have hmp : m ≠ pst := by
        rintro rfl
        have := h.aft2
        rw [hL, dw_pst, ← hL, ho] at this; cases this
      have hin : pst ∈ left s.chan ↔ pst ∈ left c := by
        rw [hL, List.mem_cons]; exact ⟨fun h => h.resolve_left (fun h => hmp h.symm), .inr⟩
      refine .pers { per := h.per, loc := .inl ⟨rfl, o', rest, by rw [← hords]; exact ho, hop⟩, q := h.q, cnt := ?_, rcv := ?_, arr := ?_, stp := ?_, aft1 := ?_, aft2 := ?_, fin := h.fin }
      · have := h.cnt; rw [hords] at this; exact this
      · have := h.rcv; rw [hords] at this; exact this
      · have := h.arr; rw [hords] at this; exact this
      · have := h.stp; rw [hin] at this; exact this
      · intro h; cases h
      · have := h.aft2; rw [hL] at this; exact ords_dw_tail this
  | idleSkip m c o hp hc hm hdr hr =>
    rcases gd hc with ⟨t, o1, rfl, hn⟩ | rfl | rfl | rfl
    · cases hm; exact absurd hdr hn
    all_goals cases hm
  | idleNeed m c o hp hc hm hdr hr => exact quiet rfl (start hp hc hm rfl rfl rfl rfl)
  | idleCall m c o hp hc hm hdr hr htag =>
    exact quiet rfl (start hp hc hm rfl rfl rfl rfl)
  | idleFail => exact absurd rfl hnf
  | skipped m c o hp hc =>
    rw [hp] at I
    cases I with
    | rest h => cases h.ph
    | closing h => cases h.ph
    | plain h =>
      rcases h.at' with ⟨h, _⟩ | ⟨⟨_, h, _⟩, _⟩ | ⟨h, _⟩ <;> cases h
    | pers h =>
      rcases h.loc with ⟨h, _⟩ | ⟨_, h, _⟩ <;> cases h
  | rowsFail => exact absurd rfl hnf
  | called m c o hp hc htag =>
    have hL := left_recv hc
    obtain ⟨x, hx⟩ : ∃ x, m.2 = .data x := onEv_head (l := [_]) hk
    have hmz := good_data (gd hc) hx
    subst hmz
    refine quiet rfl (inCallStep (by rw [hp]; simp) (by rw [hp]; rfl) ?_ (by rw [hp]; rfl) (by rw [hp]; rfl) ?_ (by rw [hp]; exact Iff.rfl) ?_)
    · rw [hL]; rfl
    · rw [hL, List.mem_cons]; exact ⟨.inr, fun h => h.resolve_left (by decide)⟩
    · rw [hL]; exact ords_dw_tail
  | send o rows h h' x hp =>
    have hrun : running s.tr = some (o, rows) := by have := hF.2.2; rw [Link, hp] at this; exact this.1
    obtain ⟨d1, d2, d3⟩ := onEv_head (l := []) hd
    have hop : o.persistent = true := by simpa [inPersis, hrun] using d1
    refine ⟨[(s.tr, .data x)], rfl, ?_⟩
    rw [hp] at I
    cases I with
    | rest h => cases h.ph
    | closing h => cases h.ph
    | plain h =>
      rcases h.at' with ⟨h, _⟩ | ⟨⟨o', h, h2⟩, _⟩ | ⟨h, _⟩
      · cases h
      · cases h; rw [hop] at h2; cases h2
      · cases h
    | pers h =>
      refine .pers { per := h.per, loc := .inr ⟨o, rfl, hop⟩, q := ?_, cnt := ?_, rcv := ?_, arr := h.arr, stp := h.stp, aft1 := h.aft1, aft2 := h.aft2, fin := h.fin }
      · intro y hy
        rcases List.mem_append.mp hy with hy | hy
        · exact h.q y hy
        · rw [List.mem_singleton] at hy; subst hy; exact ⟨x, rfl, d2, d1⟩
      · intro hr
        have h1 := h.cnt hr
        rw [nAns_append]
        have har : arMode s.tr = false := by
          cases ha : arMode s.tr with
          | false => rfl
          | true => have := h.arr (.inl ha); rw [hr] at this; cases this
        cases hks : (env.msg x).keepState with
        | true =>
          simp only [owe, owes, hks, Bool.true_and, nAns, isAnswer, List.countP_cons, List.countP_nil, Bool.not_true] at h1 ⊢
          simpa using h1
        | false =>
          have ho : owes env s.tr = true := by
            rcases d3 hks with h | h
            · exact h
            · rw [har] at h; cases h
          simp only [owe, owes, hks, ho, Bool.false_and, nAns, isAnswer, List.countP_cons, List.countP_nil, Bool.not_false, if_true] at h1 ⊢
          simp only [Bool.false_eq_true, if_false]
          refine ⟨by omega, h1.2.trans (or_congr ⟨fun _ => ?_, fun _ => ?_⟩ Iff.rfl)⟩ <;> omega
      · intro hr
        obtain ⟨a, b⟩ := h.rcv hr
        refine ⟨a, ?_⟩
        rcases b with b | ⟨b, c⟩
        · exact .inl b
        · refine .inr ⟨?_, c⟩
          simp only [owe] at b ⊢
          have : owes env s.tr = false := by
            cases ho : owes env s.tr with
            | false => rfl
            | true => rw [ho] at b; cases b
          simp [owes, this]
  | raise => exact absurd rfl hnf
  | retFail => exact absurd rfl hnf
  | retStop o rows h c bs u hp hl hc hu =>
    have h1 : u ≠ .pairStatus FINISH ∧ u ≠ .triple FINISH := onEv_head (l := .stop :: bs) hd
    rcases hu with h | h | ⟨_, m, hm, hf⟩
    · exact absurd h h1.1
    · exact absurd h h1.2
    · have hr : s.chan.recv = ({ s.chan with buf := none }, some m) := by unfold Comms.Chan.recv; rw [hm]
      rcases gd hr with ⟨t, o, rfl, _⟩ | rfl | rfl | rfl
      · cases hf.2
      · cases hf.2
      · exact absurd hf.2 (by decide)
      · exact absurd hf.2 (by decide)
  | retAnswer o rows h c bs u st r hp hl hc hns hu =>
    obtain ⟨e1, e2, e3, e4⟩ := outs_bs (env := env) (u := u) hc
    have hords : ords (left s.chan) = ords (left c) := by
      rcases hc with ⟨_, rfl, _⟩ | ⟨m, hb, hr, rfl⟩
      · rfl
      · obtain ⟨n, hn⟩ : ∃ n, m.2 = .sig n := onEv_head (l := [_]) hk
        rw [left_recv hr, ords_cons (fun o h => by rw [hn] at h; cases h)]
    refine ⟨[(bs ++ .ret u :: s.tr, .answer o st r)], by simp only [outs]; rw [e1], ?_⟩
    have hd1 := onEv_head (l := []) hd
    rw [hp] at I
    cases I with
    | rest h => cases h.ph
    | closing h => cases h.ph
    | plain h =>
      rcases h.at' with ⟨h, _⟩ | ⟨⟨o', h1, h2⟩, h3, h4⟩ | ⟨h, _⟩
      · cases h
      · cases h1
        exact .plain ⟨h.v, .inr (.inr ⟨rfl, by rw [← hords]; exact h3, _, _, _, _, by rw [h4]; rfl, h2⟩)⟩
      · cases h
    | pers h =>
      have hop : o.persistent = true := by
        rcases h.loc with ⟨h, _⟩ | ⟨o', h1, h2⟩
        · cases h
        · cases h1; exact h2
      obtain ⟨hst, hor⟩ := hd1 hop
      rw [e2, e3, e4] at hor
      have hst2 : told s.tr = true → v.stopped = true := fun ht => h.stp.mpr (.inl ht)
      have hrc : v.recv = true → told s.tr = true := by
        intro hr
        rcases hor with ht | ⟨a, b⟩
        · exact ht
        · rcases (h.rcv hr).2 with h' | ⟨h', _⟩
          · simp only [phAr] at h'; rw [b] at h'; cases h'
          · simp [owe, a] at h'
      have hb : v.busy = true := by
        cases hr : v.recv with
        | true => exact (h.rcv hr).1
        | false =>
          rcases hor with ht | ⟨a, b⟩
          · exact (h.cnt hr).2.mpr (.inr (hst2 ht))
          · refine (h.cnt hr).2.mpr (.inl ?_)
            have := (h.cnt hr).1
            simp only [owe, a, if_true] at this ⊢
            omega
      refine .closing { per := h.per, busy := hb, ph := rfl, ords := ?_, q := ⟨Q, _, o, st, r, rfl, hop, hst, h.q, ?_⟩, rcv := fun hr => h.fin (hst2 (hrc hr)) }
      · rw [← hords]
        rcases hor with ht | ⟨a, b⟩
        · exact h.aft1 ht
        · cases hr : v.recv with
          | true => exact h.aft1 (hrc hr)
          | false =>
            have := (h.cnt hr).1
            simp only [owe, a, if_true] at this
            exact List.eq_nil_of_length_eq_zero (by omega)
      · cases hr : v.recv with
        | true => exact .inl rfl
        | false =>
          rcases hor with ht | ⟨a, b⟩
          · exact .inr (.inl (hst2 ht))
          · have := (h.cnt hr).1
            simp only [owe, a, if_true] at this
            exact .inr (.inr (by omega))
  | pollDrop o rows h h' m c hp hc hm => exact absurd (hca.2 m (by simp)) hm
  | pollBack o rows h h' m c hp hc hm =>
    have hL : left ({ c with buf := some m } : Comms.Chan Msg) = left s.chan := by rw [left_push (recv_buf_none hc), left_recv hc]
    have hmp : m ≠ pst := by rintro rfl; cases hm
    refine quiet rfl (inCallStep (by rw [hp]; simp) (by rw [hp]; rfl) (by rw [hL]) (by rw [hp]; rfl) (by rw [hp]; rfl) (by rw [hL]) ?_ (by rw [hL]; exact id))
    rw [hp]
    simp only [phTold, told_uback, told_ptook]
    exact ⟨fun h => h.resolve_left hmp, .inr⟩
  | recvWork o rows h m c o' hp hc hm =>
    have hL := left_recv hc
    obtain ⟨t, b⟩ := m
    simp only at hm; subst hm
    refine quiet rfl ?_
    rw [hL, hp] at I
    cases I with
    | rest h => cases h.ph
    | closing h => cases h.ph
    | plain h =>
      rcases h.at' with ⟨h, _⟩ | ⟨_, h3, _⟩ | ⟨h, _⟩
      · cases h
      · rw [ords_work] at h3; cases h3
      · cases h
    | pers h =>
      have hne : pst ≠ ((t, .work o') : Msg) := by intro h; simp [pst] at h
      have hin : pst ∈ ((t, .work o') : Msg) :: left c ↔ pst ∈ left c := by
        rw [List.mem_cons]; exact ⟨fun h => h.resolve_left hne, .inr⟩
      have htold : told (.utook (t, .work o') :: s.tr) = true ↔ told s.tr = true := by
        rw [told_utook]; exact ⟨fun h => h.resolve_left (fun h => hne h.symm), .inr⟩
      have hnt : told s.tr ≠ true := by
        intro ht; have := h.aft1 ht; rw [ords_work] at this; cases this
      have hloc := h.loc
      refine .pers { per := h.per, loc := ?_, q := h.q, cnt := ?_, rcv := ?_, arr := ?_, stp := ?_, aft1 := ?_, aft2 := ords_dw_tail h.aft2, fin := h.fin }
      · rcases hloc with ⟨h, _⟩ | h
        · cases h
        · exact .inr h
      · intro hr
        have := h.cnt hr
        rw [ords_work, List.length_cons] at this
        simp only [owe, owes, if_true] at this ⊢
        have h0 : (if owes env s.tr = true then 1 else 0) = 0 := by omega
        rw [h0] at this
        refine ⟨by omega, this.2.trans (or_congr ⟨fun _ => ?_, fun _ => ?_⟩ Iff.rfl)⟩ <;> omega
      · intro hr
        refine ⟨(h.rcv hr).1, .inl ?_⟩
        simp only [phAr, arMode]
        rcases (h.rcv hr).2 with h' | ⟨_, o1, r1, h', h''⟩
        · simp only [phAr] at h'; rw [h', Bool.or_true]
        · rw [ords_work] at h'
          simp only [List.cons.injEq] at h'
          obtain ⟨rfl, _⟩ := h'
          rw [h'']; rfl
      · intro h'
        refine h.arr ?_
        rw [ords_work]
        rcases h' with h' | ⟨o1, h1, h2⟩
        · simp only [phAr, arMode, Bool.or_eq_true] at h'
          rcases h' with h' | h'
          · exact .inr ⟨_, List.mem_cons_self, h'⟩
          · exact .inl h'
        · exact .inr ⟨o1, List.mem_cons_of_mem _ h1, h2⟩
      · rw [h.stp, hin]
        simp only [phTold, htold]
      · simp only [phTold, htold]
        intro ht; exact absurd ht hnt
  | recvBack o rows h h' m c hp hc hw hm =>
    have hL : left ({ c with buf := some m } : Comms.Chan Msg) = left s.chan := by rw [left_push (recv_buf_none hc), left_recv hc]
    obtain ⟨e1, e2⟩ := owes_utook (env := env) hw s.tr
    refine quiet rfl (I.move (by rw [hp]; simp) (by rw [hp]; rfl) (by rw [hL]) ?_ ?_ ?_ ?_ (by rw [hL]; exact id))
    · rw [hp]; simp only [owe, owes, e1]
    · rw [hp]; simp only [phAr, arMode, e2]
    · rw [hp, hL]
      simp only [phTold, told_uback, told_utook]
      constructor
      · rintro ((h | h) | h)
        · right; rw [left_recv hc, h]; exact List.mem_cons_self
        · exact .inl h
        · exact .inr h
      · rintro (h | h)
        · exact .inl (.inr h)
        · exact .inr h
    · rw [hp, hL]
      simp only [phTold, told_uback, told_utook]
      intro h1 h2 h3
      rcases h3 with h3 | h3
      · rw [left_recv hc, h3, dw_pst] at h2
        rw [left_recv hc, h3]; exact h2
      · exact h1 h3
  | recvErr o rows h h' m c hp hc hw hm =>
    have hx : ∀ x, m.2 ≠ .data x := onEv_head (l := []) hk
    rcases gd hc with ⟨t, o1, rfl, hn⟩ | rfl | rfl | rfl
    · exact absurd rfl (hw o1)
    · exact absurd rfl (hx 0)
    · cases hm
    · cases hm
  | rowsBack o rows h h' t o' m c hp hc hm =>
    obtain ⟨x, hx⟩ : ∃ x, m.2 = .data x := onEv_head (l := [_]) hk
    have hmz := good_data (gd hc) hx
    subst hmz
    cases hm
  | rowsGot o rows h h' t o' m c hp hc hm =>
    have hL := left_recv hc
    obtain ⟨x, hx⟩ : ∃ x, m.2 = .data x := onEv_head (l := []) hk
    have hmz := good_data (gd hc) hx
    subst hmz
    refine quiet rfl (inCallStep (by rw [hp]; simp) (by rw [hp]; rfl) ?_ (by rw [hp]; rfl) (by rw [hp]; rfl) ?_ ?_ ?_)
    · rw [hL]; rfl
    · rw [hL, List.mem_cons]; exact ⟨.inr, fun h => h.resolve_left (by decide)⟩
    · rw [hp]
      simp only [phTold, told_utookRows]
      exact ⟨fun h => h.resolve_left (by decide), .inr⟩
    · rw [hL]; exact ords_dw_tail

end Verif.System
