import Verif.Aposmm.ThreadProps

/-
Property C69, continued: if generator and manager take turns, the runner raises no exception and there is always someone who can go on.
-/
namespace Verif.Aposmm

variable {β : Type}

/-- Orders with results. -/
def MMsg.isWork : MMsg β → Bool
  | .work _ => true
  | .stop _ => false

/-- Orders among messages, and messages with points. -/
def works (l : List (MMsg β)) : Nat := l.countP MMsg.isWork
def pointsSent (l : List TSend) : Nat := l.countP fun | .points _ => true | .update _ => false

/-- The generator may send: it sends one message at the start and one for every batch. -/
def genTurn (s : TSt β) : Prop := s.emitted.length ≤ s.cls.out.length

/-- The manager may send results: it answers each message with points once, after all its points have been evaluated (no `async_return`). -/
def mgrTurn (s : TSt β) : Prop := works s.arrived < pointsSent s.sent

/-- Executions without `H0` in which generator and manager take turns; the first answer of the manager has the results of the whole initial sample, a stop comes
after it. -/
inductive Turns (n : Nat) : TSt β → Prop
  | init : Turns n { cls := { size := n } }
  | gen {s : TSt β} (m : List Sug) : Turns n s → genTurn s →
      Turns n { s with cls := { s.cls with inbox := s.cls.inbox ++ [m] }, emitted := s.emitted ++ [m] }
  | work {s : TSt β} (rs : List (Nat × β)) : Turns n s → mgrTurn s → (s.arrived = [] → rs.length = n) →
      Turns n { s with mail := s.mail ++ [.work rs], arrived := s.arrived ++ [.work rs] }
  | stop {s : TSt β} (x : Option (List (Nat × β))) : Turns n s → s.arrived ≠ [] → Turns n { s with mail := s.mail ++ [.stop x], arrived := s.arrived ++ [.stop x] }
  | run {s s' : TSt β} : Turns n s → s.step = some s' → Turns n s'
  | ends {s : TSt β} : Turns n s → s.pt = .stopping → s.raw.any (·.stop) = true → Turns n { s with pt := .done }

theorem Turns.reach {n : Nat} {s : TSt β} (h : Turns n s) : TReach [] n s := by
  induction h with
  | init => exact .init
  | gen m _ _ ih => exact .gen m ih
  | work rs _ _ _ ih => exact .mgr _ ih
  | stop x _ _ ih => exact .mgr _ ih
  | run _ hs ih => exact .run ih hs
  | ends _ hp hr ih => exact .ends ih hp hr

theorem pointsSent_updates (l : List (List Sug)) : pointsSent (l.map TSend.update) = 0 := by
  induction l with
  | nil => rfl
  | cons a l ih => simpa [pointsSent] using ih

theorem pointsSent_later (acc : List (List Sug)) (ms : List (List Sug)) : pointsSent (sendLater acc ms) = ms.length := by
  induction ms generalizing acc with
  | nil => rfl
  | cons m ms ih =>
    have h1 := ih []
    have h2 := pointsSent_updates (acc ++ minsOf m)
    unfold pointsSent at h1 h2 ⊢
    simp only [sendLater, List.cons_append, List.countP_cons, List.countP_append, h1, h2, List.length_cons, if_true]
    omega

theorem pointsSent_all (ms : List (List Sug)) : pointsSent (sendAll ms) = ms.length := by
  cases ms with
  | nil => rfl
  | cons m ms =>
    have h1 := pointsSent_later (minsOf m) ms
    unfold pointsSent at h1 ⊢
    simp only [sendAll, List.countP_cons, h1, List.length_cons, if_true]

/-- What holds when turns are taken. -/
structure UInv (n : Nat) (s : TSt β) : Prop where
  ok : ∀ e, s.pt ≠ .raised e
  size : s.cls.size = n
  orders : works s.arrived ≤ s.cls.taken.length
  first : ∀ m, s.arrived.head? = some m → ∃ rs, m = .work rs ∧ rs.length = n
  got : s.pt.over = false → works s.got = s.got.length ∧ s.cls.out.length = s.got.length
  emitted : s.pt.over = false → s.emitted.length ≤ s.cls.out.length + 1
  balance : s.pt.over = false → s.cls.taken.length = s.cls.out.length + if s.cls.lastSug then 1 else 0
  told : s.pt.over = false → (s.got = [] → s.cls.told = false ∧ s.cls.nbuf = 0) ∧ (s.got ≠ [] → s.cls.told = true)
  last : s.pt = .stopping → s.cls.told = true

/-- Results of the whole initial sample, or results after it, are accepted. -/
theorem ingest_ok {c : Cls β} {rs : List (Nat × β)} (h : c.told = true ∨ (c.told = false ∧ c.nbuf = 0 ∧ rs.length = c.size)) :
    ∃ c' x, c.ingest .simId rs = .ok c' ∧ c'.out = c.out ++ [x] ∧ c'.told = true ∧ c'.size = c.size := by
  unfold Cls.ingest
  rcases h with h | ⟨h, hn, hl⟩
  · rw [if_pos h, if_pos rfl]; exact ⟨_, _, rfl, rfl, h, rfl⟩
  · simp only [h, Bool.false_eq_true, if_false, hn, Nat.zero_add, hl, Nat.lt_irrefl, Nat.le_refl, if_true]
    split
    · exact ⟨_, _, rfl, rfl, rfl, rfl⟩
    · exact ⟨_, _, rfl, rfl, rfl, rfl⟩

theorem works_append (l r : List (MMsg β)) : works (l ++ r) = works l + works r := List.countP_append

theorem Turns.inv {n : Nat} {s : TSt β} (h : Turns n s) : UInv n s := by
  induction h with
  | init => exact ⟨nofun, rfl, Nat.le_refl _, nofun, fun _ => ⟨rfl, rfl⟩, fun _ => Nat.zero_le _, fun _ => rfl, fun _ => ⟨fun _ => ⟨rfl, rfl⟩, fun h => absurd rfl h⟩, nofun⟩
  | gen m hr hg ih =>
    refine ⟨ih.ok, ih.size, ih.orders, ih.first, ih.got, fun ho => ?_, ih.balance, ih.told, ih.last⟩
    unfold genTurn at hg
    simp only [List.length_append, List.length_singleton]; omega
  | @work s rs hr hg hl ih =>
    unfold mgrTurn at hg
    rw [hr.reach.inv.sent, pointsSent_all] at hg
    refine ⟨ih.ok, ih.size, ?_, fun m hm => ?_, ih.got, ih.emitted, ih.balance, ih.told, ih.last⟩
    · rw [works_append]; show works s.arrived + 1 ≤ s.cls.taken.length; omega
    · cases ha : s.arrived with
      | nil => rw [ha] at hm; cases hm; exact ⟨rs, rfl, hl ha⟩
      | cons a l => rw [ha] at hm; exact ih.first m (by rw [ha]; exact hm)
  | @stop s x hr hg ih =>
    refine ⟨ih.ok, ih.size, ?_, fun m hm => ?_, ih.got, ih.emitted, ih.balance, ih.told, ih.last⟩
    · rw [works_append]; exact ih.orders
    · cases ha : s.arrived with
      | nil => exact absurd ha hg
      | cons a l => rw [ha] at hm; exact ih.first m (by rw [ha]; exact hm)
  | ends hr hp hs ih => exact ⟨nofun, ih.size, ih.orders, ih.first, nofun, nofun, nofun, nofun, nofun⟩
  | @run s s' hr hs ih =>
    have hi := hr.reach.inv
    obtain ⟨q1, q2⟩ := hr.reach.queues
    have qw : works s.got + works s.mail = works s.arrived := by rw [← q2, works_append]
    have qe : s.cls.taken.length + s.cls.inbox.length = s.emitted.length := by rw [← q1, List.length_append]
    have sz := suggest_zero hi.last hi.num
    unfold TSt.step at hs
    split at hs
    · rename_i hp
      injection hs with hs; subst hs
      have ho : s.pt.over = false := by rw [hp]; rfl
      rw [hi.rows]
      exact ⟨nofun, ih.size, ih.orders, ih.first, fun _ => ih.got ho, fun _ => ih.emitted ho, fun _ => ih.balance ho, fun _ => ih.told ho, nofun⟩
    · rename_i hp
      have ho : s.pt.over = false := by rw [hp]; rfl
      have ht := (hi.early (.inr hp)).1
      have hb := ih.balance ho
      have hg := (hi.early (.inr hp)).2
      have hout : s.cls.out.length = 0 := by rw [(ih.got ho).2, hg]; rfl
      have hl : s.cls.lastSug = false := by
        cases hl : s.cls.lastSug with
        | false => rfl
        | true => rw [ht, hl] at hb; simp at hb
      unfold TSt.first at hs
      rw [sz] at hs
      simp only [hl, Bool.false_eq_true, if_false] at hs
      cases hx : s.cls.inbox with
      | nil => rw [hx] at hs; cases hs
      | cons m ms =>
        rw [hx] at hs
        dsimp only at hs
        injection hs with hs; subst hs
        have := ih.orders
        have ht' := congrArg List.length ht
        refine ⟨nofun, ih.size, ?_, ih.first, fun _ => ih.got ho, fun _ => ih.emitted ho, fun _ => ?_, fun _ => ih.told ho, nofun⟩
        · simp only [List.length_append]; omega
        · simp only [List.length_append, List.length_singleton, if_true]
          rw [ht', hout]; rfl
    · rename_i hp
      have ho : s.pt.over = false := by rw [hp]; rfl
      have hg := (hi.wait hp).1
      have htk := List.length_pos_iff.mpr (hi.wait hp).2
      obtain ⟨t1, t2⟩ := (ih.told ho).1 hg
      have hout : s.cls.out.length = 0 := by rw [(ih.got ho).2, hg]; rfl
      have hb := ih.balance ho
      unfold TSt.firstAnswer at hs
      split at hs
      · cases hs
      · rename_i m ms hm
        obtain ⟨rs, rfl, hrs⟩ := ih.first m (by rw [← q2, hg, hm]; rfl)
        dsimp only at hs
        injection hs with hs; subst hs
        obtain ⟨c, x, e1, e2, e3, e4⟩ := ingest_ok (c := s.cls) (rs := rs) (.inr ⟨t1, t2, hrs.trans ih.size.symm⟩)
        obtain ⟨_, _, f3, f4, _, f6, _⟩ := ingest_frame e1
        unfold TSt.tell
        dsimp only
        rw [e1]
        dsimp only
        have hem := ih.emitted ho
        refine ⟨nofun, e4.trans ih.size, f3 ▸ ih.orders, ih.first, fun _ => ?_, fun _ => ?_, fun _ => ?_, fun _ => ⟨by rw [hg]; nofun, fun _ => e3⟩, nofun⟩
        · rw [hg]; refine ⟨rfl, ?_⟩; show c.out.length = 1; rw [e2, List.length_append, hout]; rfl
        · show s.emitted.length ≤ c.out.length + 1
          rw [e2, List.length_append]; simp only [List.length_singleton]; omega
        · show c.taken.length = c.out.length + _
          rw [f3, e2, f6, List.length_append, hb]
          have : s.cls.lastSug = true := by
            cases hl : s.cls.lastSug with
            | true => rfl
            | false => rw [hl] at hb; simp at hb; omega
          rw [this]; simp
    · rename_i hp
      have ho : s.pt.over = false := by rw [hp]; rfl
      have hb := ih.balance ho
      have hem := ih.emitted ho
      injection hs with hs; subst hs
      unfold TSt.drainOnce
      split
      · exact ⟨nofun, ih.size, ih.orders, ih.first, fun _ => ih.got ho, fun _ => hem, fun _ => hb, fun _ => ih.told ho, nofun⟩
      · rename_i hne
        rw [sz]
        cases hx : s.cls.inbox with
        | nil => rw [hx] at hne; exact absurd rfl hne
        | cons m ms =>
          rw [hx, List.length_cons] at qe
          cases hl : s.cls.lastSug with
          | true => rw [hl] at hb; simp at hb; omega
          | false =>
            rw [hl] at hb
            have := ih.orders
            simp only [Bool.false_eq_true, if_false] at hb ⊢
            have hpt : ∀ e, s.pt ≠ .raised e := by rw [hp]; nofun
            refine ⟨hpt, ih.size, ?_, ih.first, fun _ => ih.got ho, fun _ => hem, fun _ => ?_, fun _ => ih.told ho, by rw [hp]; nofun⟩
            · simp only [Cls.takeUpdates, List.length_append]; omega
            · simp only [Cls.takeUpdates, List.length_append, List.length_singleton, if_true]; omega
    · rename_i hp
      have ho : s.pt.over = false := by rw [hp]; rfl
      have hb := ih.balance ho
      have hem := ih.emitted ho
      have hgw := ih.got ho
      have ht := (ih.told ho).2 (hi.later (.inr hp)).1
      injection hs with hs; subst hs
      unfold TSt.checkOnce
      split
      · exact ⟨nofun, ih.size, ih.orders, ih.first, fun _ => hgw, fun _ => hem, fun _ => hb, fun _ => ih.told ho, nofun⟩
      · rename_i m ms hm
        dsimp only
        split
        · rename_i rs
          obtain ⟨c, x, e1, e2, e3, e4⟩ := ingest_ok (c := s.cls) (rs := rs) (.inl ht)
          obtain ⟨_, _, f3, f4, _, f6, _⟩ := ingest_frame e1
          unfold TSt.tell
          dsimp only
          rw [e1]
          dsimp only
          have hwm : 1 ≤ works s.mail := by rw [hm]; simp [works, MMsg.isWork]
          have hw := ih.orders
          refine ⟨nofun, e4.trans ih.size, f3 ▸ ih.orders, ih.first, fun _ => ?_, fun _ => ?_, fun _ => ?_, fun _ => ⟨by simp, fun _ => e3⟩, nofun⟩
          · refine ⟨?_, ?_⟩
            · rw [works_append, hgw.1, List.length_append]; rfl
            · show c.out.length = _
              rw [e2, List.length_append, List.length_append, hgw.2]; rfl
          · show s.emitted.length ≤ c.out.length + 1
            rw [e2, List.length_append]; simp only [List.length_singleton]; omega
          · show c.taken.length = c.out.length + _
            have : s.cls.lastSug = true := by
              cases hl : s.cls.lastSug with
              | true => rfl
              | false => rw [hl] at hb; simp at hb; omega
            rw [f3, e2, f6, List.length_append, hb, this]; simp
        · rename_i rs
          obtain ⟨c, x, e1, e2, e3, e4⟩ := ingest_ok (c := s.cls) (rs := rs) (.inl ht)
          obtain ⟨_, _, f3, f4, _, f6, _⟩ := ingest_frame e1
          unfold TSt.tell
          dsimp only
          rw [e1]
          dsimp only
          exact ⟨nofun, e4.trans ih.size, f3 ▸ ih.orders, ih.first, nofun, nofun, nofun, nofun, fun _ => e3⟩
        · exact ⟨nofun, ih.size, ih.orders, ih.first, nofun, nofun, nofun, nofun, fun _ => ht⟩
    · cases hs
    · cases hs
    · cases hs

/-- **C69** If generator and manager take turns, the runner raises no exception, and a stop ends it: whenever it waits for the generator to end, the generator has been
told to.  Partial: with `async_return` the manager does not take turns, see `C69_race`. -/
theorem C69_no_error_partial {n : Nat} {s : TSt β} (h : Turns n s) :
    (∀ e, s.pt ≠ .raised e) ∧ (s.pt = .stopping → s.raw.any (·.stop) = true) := by
  refine ⟨h.inv.ok, fun hp => ?_⟩
  obtain ⟨g, x, _, he, _⟩ := h.reach.inv.stopped (.inl hp)
  exact (C69_end_partial h.reach).2.2 hp x (by rw [he]; simp) (.inr (h.inv.last hp))

/-- **C69** Taking turns, there is no deadlock: before a stop, a message is waiting to be passed on, or the generator is to answer, or the manager may. -/
theorem C69_turn_partial {n : Nat} {s : TSt β} (h : Turns n s) (ho : s.pt.over = false) :
    s.cls.inbox ≠ [] ∨ s.mail ≠ [] ∨ genTurn s ∨ mgrTurn s := by
  cases hi : s.cls.inbox with
  | cons a l => exact .inl nofun
  | nil =>
    cases hm : s.mail with
    | cons a l => exact .inr (.inl nofun)
    | nil =>
      refine .inr (.inr ?_)
      obtain ⟨q1, q2⟩ := h.reach.queues
      rw [hi, List.append_nil] at q1
      rw [hm, List.append_nil] at q2
      have h1 := h.inv.emitted ho
      have h2 := h.inv.got ho
      unfold genTurn mgrTurn
      rw [h.reach.inv.sent, pointsSent_all, q1, ← q2, h2.1, ← h2.2]
      omega

end Verif.Aposmm
