import Verif.Aposmm.Thread

/-
Property C69: the runner of `APOSMM` moves every message between the generator and the manager once and in order, and ends when told to.
-/
namespace Verif.Aposmm

variable {β : Type}

/-! ### What is expected -/

/-- The points of a message of the generator, and its minima (no message if there are none). -/
def ptsOf (m : List Sug) : List Sug := m.filter fun p => !p.lmin
def minsOf (m : List Sug) : List (List Sug) := if m.any (·.lmin) then [m.filter (·.lmin)] else []

/-- What is to be sent for the second and later messages, if the minima `acc` of an earlier one are still to be sent. -/
def sendLater (acc : List (List Sug)) : List (List Sug) → List TSend
  | [] => []
  | m :: ms => .points (ptsOf m) :: (acc ++ minsOf m).map .update ++ sendLater [] ms

/-- What is to be sent to the manager for the messages of the generator: the points of each, followed by its minima; minima in the first message follow
the points of the second. -/
def sendAll : List (List Sug) → List TSend
  | [] => []
  | m :: ms => .points (ptsOf m) :: sendLater (minsOf m) ms

/-- The results in a message of the manager. -/
def MMsg.results : MMsg β → List (Nat × β)
  | .work rs | .stop (some rs) => rs
  | .stop none => []

/-! ### Lemmas -/

theorem sendLater_snoc (acc : List (List Sug)) (ms : List (List Sug)) (m : List Sug) :
    sendLater acc (ms ++ [m]) = sendLater acc ms ++ .points (ptsOf m) :: ((if ms = [] then acc else []) ++ minsOf m).map .update := by
  induction ms generalizing acc with
  | nil => simp [sendLater]
  | cons x ms ih =>
    simp only [List.cons_append, sendLater, ih, reduceCtorEq, if_false]
    split <;> simp

theorem suggest_zero {c : Cls β} (hl : c.last = none) (hn : c.lastNum = 0) :
    c.suggest 0 = if c.lastSug = true then .error .expecting else match c.inbox with
      | [] => .error .blocked
      | m :: ms => .ok (ptsOf m, { c with
          idx := 0, inbox := ms, taken := c.taken ++ [m], last := none, minima := c.minima ++ minsOf m,
          handed := c.handed ++ ptsOf m, lastSug := true, lastNum := 0 }) := by
  unfold Cls.suggest Cls.ready Cls.fetch
  rw [hl]
  dsimp only
  cases hs : c.lastSug with
  | true => simp [hn]
  | false =>
    simp only [Bool.false_and, Bool.false_eq_true, if_false]
    cases hi : c.inbox with
    | nil => rfl
    | cons m ms =>
      dsimp only
      unfold Cls.hand
      simp only [Nat.lt_irrefl, gt_iff_lt, if_false, Option.getD_some]
      congr 3
      unfold minsOf
      split <;> simp

/-- What `ingest_numpy` leaves alone and what it adds. -/
theorem ingest_frame {c c' : Cls β} {rs : List (Nat × β)} (h : c.ingest .simId rs = .ok c') :
    c'.last = c.last ∧ c'.lastNum = c.lastNum ∧ c'.taken = c.taken ∧ c'.inbox = c.inbox ∧ c'.minima = c.minima ∧ c'.lastSug = false ∧
    c'.given = c.given ++ rs ∧ (∃ b, c'.out = c.out ++ b ∧ (c.told = true → ∃ x, b = [x]) ∧ (c'.told = false → b = []) ∧ (c'.told = true → ∃ x, b = [x])) ∧
    (c.told = true → c'.told = true) := by
  unfold Cls.ingest at h
  dsimp only at h
  cases ht : c.told with
  | true =>
    simp only [ht, if_true] at h
    cases h
    refine ⟨rfl, rfl, rfl, rfl, rfl, rfl, rfl, ⟨_, rfl, fun _ => ⟨_, rfl⟩, fun h => Bool.noConfusion h, fun _ => ⟨_, rfl⟩⟩, fun _ => rfl⟩
  | false =>
    simp only [ht, Bool.false_eq_true, if_false] at h
    split at h
    · split at h
      · cases h
      · split at h
        · cases h
          exact ⟨rfl, rfl, rfl, rfl, rfl, rfl, rfl, ⟨_, rfl, fun h => Bool.noConfusion h, fun h => Bool.noConfusion h, fun _ => ⟨_, rfl⟩⟩, fun _ => rfl⟩
        · cases h
          exact ⟨rfl, rfl, rfl, rfl, rfl, rfl, rfl, ⟨[], (List.append_nil _).symm, fun h => Bool.noConfusion h, fun _ => rfl, fun h => Bool.noConfusion h⟩, fun h => Bool.noConfusion h⟩
    · cases h
      exact ⟨rfl, rfl, rfl, rfl, rfl, rfl, rfl, ⟨_, rfl, fun h => Bool.noConfusion h, fun h => Bool.noConfusion h, fun _ => ⟨_, rfl⟩⟩, fun _ => rfl⟩

/-- A step that passes results on. -/
theorem tell_cases (s : TSt β) (stop : Bool) (rs : List (Nat × β)) (next : TPt) :
    (∃ e, s.cls.ingest .simId rs = .error e ∧ s.tell stop rs next = { s with pt := .raised (some e) }) ∨
    ∃ c b, s.cls.ingest .simId rs = .ok c ∧ c.out = s.cls.out ++ b ∧
      s.tell stop rs next = { s with cls := c, raw := s.raw ++ loads stop b, pt := next } := by
  unfold TSt.tell
  cases h : s.cls.ingest .simId rs with
  | error e => exact .inl ⟨e, rfl, rfl⟩
  | ok c =>
    obtain ⟨_, _, _, _, _, _, _, ⟨b, hb, _⟩, _⟩ := ingest_frame h
    exact .inr ⟨c, b, rfl, hb, by simp [hb]⟩

/-- Places at which the runner does not pass anything on any more. -/
def TPt.over : TPt → Bool
  | .stopping | .done | .raised _ => true
  | _ => false

/-- What holds in every execution. -/
structure TInv (h0 : List (Nat × β)) (n : Nat) (s : TSt β) : Prop where
  cls : CReach .simId n s.cls
  last : s.cls.last = none
  num : s.cls.lastNum = 0
  rows : s.h0 = h0
  early : s.pt = .start ∨ s.pt = .ask → s.cls.taken = [] ∧ s.got = []
  begun : s.pt = .start → s.cls.given = [] ∧ s.raw = [] ∧ s.cls.out = []
  wait : s.pt = .waitFirst → s.got = [] ∧ s.cls.taken ≠ []
  later : s.pt = .drain ∨ s.pt = .check → s.got ≠ [] ∧ s.cls.taken ≠ []
  sent : s.sent = sendAll s.cls.taken
  mins : s.cls.minima = match s.cls.taken with | [m] => minsOf m | _ => []
  given : s.pt ≠ .start → (∀ e, s.pt ≠ .raised e) → s.cls.given = h0 ++ s.got.flatMap MMsg.results
  raw : s.pt.over = false → s.raw = loads false s.cls.out
  stopped : s.pt = .stopping ∨ s.pt = .done → ∃ g x, g ≠ [] ∧ s.got = g ++ [.stop x] ∧
    ((x = none ∧ s.raw = loads false s.cls.out ++ [⟨true, .nothing⟩]) ∨
     ∃ rs o b, x = some rs ∧ s.cls.out = o ++ b ∧ s.raw = loads false o ++ loads true b ∧ (s.cls.told = false → b = []) ∧ (s.cls.told = true → ∃ y, b = [y]))
  done : s.pt = .done → s.raw.any (·.stop) = true
  noStop : (s.pt = .drain ∨ s.pt = .check) → ∀ m ∈ s.got.drop 1, ∃ rs, m = .work rs

theorem TReach.inv {h0 : List (Nat × β)} {n : Nat} {s : TSt β} (h : TReach h0 n s) : TInv h0 n s := by
  induction h with
  | init => exact ⟨.init, rfl, rfl, rfl, fun _ => ⟨rfl, rfl⟩, fun _ => ⟨rfl, rfl, rfl⟩, nofun, by simp, rfl, rfl, by simp, fun _ => rfl, by simp, nofun, by simp⟩
  | @gen s m _ ih =>
    exact ⟨.arrive m ih.cls, ih.last, ih.num, ih.rows, ih.early, ih.begun, ih.wait, ih.later, ih.sent, ih.mins, ih.given, ih.raw, ih.stopped, ih.done, ih.noStop⟩
  | mgr m _ ih =>
    exact ⟨ih.cls, ih.last, ih.num, ih.rows, ih.early, ih.begun, ih.wait, ih.later, ih.sent, ih.mins, ih.given, ih.raw, ih.stopped, ih.done, ih.noStop⟩
  | @ends s _ hp hr ih =>
    refine ⟨ih.cls, ih.last, ih.num, ih.rows, by simp, nofun, nofun, by simp, ih.sent, ih.mins, fun _ _ => ih.given (by rw [hp]; nofun) (by rw [hp]; nofun), nofun,
      fun _ => ih.stopped (.inl hp), fun _ => hr, by simp⟩
  | @run s s' hr hs ih =>
    have fail : ∀ (t : TSt β) (e : Option ClsErr), t.cls = s.cls → t.h0 = s.h0 → t.sent = s.sent → TInv h0 n { t with pt := .raised e } := by
      intro t e h1 h2 h3
      refine ⟨?_, ?_, ?_, ?_, by simp, nofun, nofun, by simp, ?_, ?_, fun _ h => absurd rfl (h e), nofun, by simp, nofun, by simp⟩
      all_goals dsimp only
      · rw [h1]; exact ih.cls
      · rw [h1]; exact ih.last
      · rw [h1]; exact ih.num
      · rw [h2]; exact ih.rows
      · rw [h3, h1]; exact ih.sent
      · rw [h1]; exact ih.mins
    unfold TSt.step at hs
    split at hs
    · -- start
      rename_i hp
      injection hs with hs
      subst hs
      obtain ⟨b1, b2, b3⟩ := ih.begun hp
      obtain ⟨e1, e2⟩ := ih.early (.inl hp)
      split
      · rename_i he
        have he : h0 = [] := by rw [← ih.rows]; simpa using he
        refine ⟨ih.cls, ih.last, ih.num, ih.rows, fun _ => ⟨e1, e2⟩, nofun, nofun, by simp, ih.sent, ih.mins, fun _ _ => ?_, fun _ => ?_, by simp, nofun, by simp⟩
        · show s.cls.given = h0 ++ s.got.flatMap _
          rw [b1, e2, he]; rfl
        · show s.raw = loads false s.cls.out
          rw [b2, b3]; rfl
      · rcases tell_cases s false s.h0 .ask with ⟨e, _, h⟩ | ⟨c, b, h1, h2, h⟩
        · rw [h]; exact fail s _ rfl rfl rfl
        · rw [h]
          obtain ⟨f1, f2, f3, f4, f5, f6, f7, _, _⟩ := ingest_frame h1
          refine ⟨.ingest ih.cls h1, f1.trans ih.last, f2.trans ih.num, ih.rows, fun _ => ⟨f3.trans e1, e2⟩, nofun, nofun, by simp,
            by rw [show s.sent = _ from ih.sent, f3], by rw [f5, f3]; exact ih.mins, fun _ _ => ?_, fun _ => ?_, by simp, nofun, by simp⟩
          · show c.given = h0 ++ s.got.flatMap _
            rw [f7, b1, e2, ih.rows]; simp
          · show s.raw ++ loads false b = loads false c.out
            rw [b2, h2, b3]; simp
    · -- ask
      rename_i hp
      obtain ⟨e1, e2⟩ := ih.early (.inr hp)
      unfold TSt.first at hs
      rw [suggest_zero ih.last ih.num] at hs
      split at hs
      · cases hs
      · injection hs with hs; subst hs; exact fail s _ rfl rfl rfl
      · rename_i l c hc
        injection hs with hs; subst hs
        have hc' := hc
        rw [← suggest_zero ih.last ih.num] at hc'
        split at hc
        · cases hc
        · split at hc
          · cases hc
          · rename_i m ms hi
            cases hc
            refine ⟨.suggest ih.cls (fun _ => .inl ih.last) hc', rfl, rfl, ih.rows, by simp, nofun, fun _ => ⟨e2, by simp⟩, by simp, ?_, ?_, fun _ _ => ?_, fun _ => ?_, by simp, nofun, by simp⟩
            · show s.sent ++ _ = sendAll (s.cls.taken ++ [m])
              rw [ih.sent, e1]; rfl
            · show s.cls.minima ++ minsOf m = match s.cls.taken ++ [m] with | [m] => minsOf m | _ => []
              have := ih.mins
              rw [e1] at this ⊢
              rw [this]; rfl
            · exact ih.given (by rw [hp]; nofun) (by rw [hp]; nofun)
            · exact ih.raw (by rw [hp]; rfl)
    · -- waitFirst
      rename_i hp
      obtain ⟨e2, hne⟩ := ih.wait hp
      unfold TSt.firstAnswer at hs
      split at hs
      · cases hs
      · rename_i m ms hm
        dsimp only at hs
        have key : ∀ rs, m.results = rs → s.cls.taken ≠ [] → TInv h0 n (TSt.tell { s with mail := ms, got := s.got ++ [m] } false rs .drain) := by
          intro rs hrs hne
          rcases tell_cases { s with mail := ms, got := s.got ++ [m] } false rs .drain with ⟨e, _, h⟩ | ⟨c, b, h1, h2, h⟩
          · rw [h]; exact fail _ _ rfl rfl rfl
          · rw [h]
            dsimp only at h1 h2
            obtain ⟨f1, f2, f3, f4, f5, f6, f7, _, _⟩ := ingest_frame h1
            refine ⟨.ingest ih.cls h1, f1.trans ih.last, f2.trans ih.num, ih.rows, by simp, nofun, nofun, fun _ => ⟨by simp, by rw [f3]; exact hne⟩,
              by rw [show s.sent = _ from ih.sent, f3], by rw [f5, f3]; exact ih.mins, fun _ _ => ?_, fun _ => ?_, by simp, nofun, by simp [e2]⟩
            · show c.given = h0 ++ (s.got ++ [m]).flatMap _
              rw [f7, ih.given (by rw [hp]; nofun) (by rw [hp]; nofun)]
              simp [hrs]
            · show s.raw ++ loads false b = loads false c.out
              rw [ih.raw (by rw [hp]; rfl), h2]
              simp [loads]
        split at hs
        · injection hs with hs; subst hs; exact key _ rfl hne
        · injection hs with hs; subst hs; exact key _ rfl hne
        · injection hs with hs; subst hs; exact fail { s with mail := ms, got := s.got ++ [.stop none] } _ rfl rfl rfl
    · -- drain
      rename_i hp
      injection hs with hs
      subst hs
      obtain ⟨l1, l2⟩ := ih.later (.inl hp)
      unfold TSt.drainOnce
      split
      · exact ⟨ih.cls, ih.last, ih.num, ih.rows, by simp, nofun, nofun, fun _ => ⟨l1, l2⟩, ih.sent, ih.mins, fun _ _ => ih.given (by rw [hp]; nofun) (by rw [hp]; nofun),
          fun _ => ih.raw (by rw [hp]; rfl), by simp, nofun, fun _ => ih.noStop (.inl hp)⟩
      · rw [suggest_zero ih.last ih.num]
        split
        · exact fail s _ rfl rfl rfl
        · rename_i l c hc
          have hc' := hc
          rw [← suggest_zero ih.last ih.num] at hc'
          split at hc
          · cases hc
          · split at hc
            · cases hc
            · rename_i m ms hi
              cases hc
              obtain ⟨x, xs, hx⟩ := List.exists_cons_of_ne_nil l2
              refine ⟨.updates (.suggest ih.cls (fun _ => .inl ih.last) hc'), rfl, rfl, ih.rows, ?_, ?_, ?_, fun _ => ⟨l1, by simp [Cls.takeUpdates]⟩, ?_, ?_, ?_, ?_, ?_, ?_, ?_⟩
              · dsimp only; rw [hp]; simp
              · dsimp only; rw [hp]; nofun
              · dsimp only; rw [hp]; nofun
              · show s.sent ++ _ = sendAll (s.cls.taken ++ [m])
                have hm := ih.mins
                rw [ih.sent, hx] at *
                simp only [List.cons_append, sendAll, sendLater_snoc]
                rw [hm]
                cases xs with
                | nil => simp [sendLater]
                | cons y ys => simp [sendLater]
              · show ([] : List (List Sug)) = match s.cls.taken ++ [m] with | [m] => minsOf m | _ => []
                rw [hx]; cases xs <;> rfl
              · exact fun _ _ => ih.given (by rw [hp]; nofun) (by rw [hp]; nofun)
              · exact fun _ => ih.raw (by rw [hp]; rfl)
              · dsimp only; rw [hp]; simp
              · dsimp only; rw [hp]; nofun
              · exact fun _ => ih.noStop (.inl hp)
    · -- check
      rename_i hp
      injection hs with hs
      subst hs
      obtain ⟨l1, l2⟩ := ih.later (.inr hp)
      unfold TSt.checkOnce
      split
      · exact ⟨ih.cls, ih.last, ih.num, ih.rows, by simp, nofun, nofun, fun _ => ⟨l1, l2⟩, ih.sent, ih.mins, fun _ _ => ih.given (by rw [hp]; nofun) (by rw [hp]; nofun),
          fun _ => ih.raw (by rw [hp]; rfl), by simp, nofun, fun _ => ih.noStop (.inr hp)⟩
      · rename_i m ms hm
        dsimp only
        split
        · rename_i rs
          rcases tell_cases { s with mail := ms, got := s.got ++ [.work rs] } false rs .check with ⟨e, _, h⟩ | ⟨c, b, h1, h2, h⟩
          · rw [h]; exact fail _ _ rfl rfl rfl
          · rw [h]
            dsimp only at h1 h2
            obtain ⟨f1, f2, f3, f4, f5, f6, f7, _, _⟩ := ingest_frame h1
            refine ⟨.ingest ih.cls h1, f1.trans ih.last, f2.trans ih.num, ih.rows, by simp, nofun, nofun, fun _ => ⟨by simp, by rw [f3]; exact l2⟩,
              by rw [show s.sent = _ from ih.sent, f3], by rw [f5, f3]; exact ih.mins, fun _ _ => ?_, fun _ => ?_, by simp, nofun, fun _ => ?_⟩
            · show c.given = h0 ++ (s.got ++ [MMsg.work rs]).flatMap _
              rw [f7, ih.given (by rw [hp]; nofun) (by rw [hp]; nofun)]
              simp [MMsg.results]
            · show s.raw ++ loads false b = loads false c.out
              rw [ih.raw (by rw [hp]; rfl), h2]
              simp [loads]
            · intro x hx
              have hx : x ∈ (s.got ++ [MMsg.work rs]).drop 1 := hx
              rw [List.drop_append] at hx
              rcases List.mem_append.mp hx with hx | hx
              · exact ih.noStop (.inr hp) x hx
              · have := List.mem_of_mem_drop hx
                simp only [List.mem_singleton] at this
                exact ⟨rs, this⟩
        · rename_i rs
          rcases tell_cases { s with mail := ms, got := s.got ++ [.stop (some rs)] } true rs .stopping with ⟨e, _, h⟩ | ⟨c, b, h1, h2, h⟩
          · rw [h]; exact fail _ _ rfl rfl rfl
          · rw [h]
            dsimp only at h1 h2
            obtain ⟨f1, f2, f3, f4, f5, f6, f7, ⟨b', hb, hb1, hb2, hb3⟩, _⟩ := ingest_frame h1
            have hbb : b = b' := List.append_cancel_left (h2.symm.trans hb)
            subst hbb
            refine ⟨.ingest ih.cls h1, f1.trans ih.last, f2.trans ih.num, ih.rows, by simp, nofun, nofun, by simp,
              by rw [show s.sent = _ from ih.sent, f3], by rw [f5, f3]; exact ih.mins, fun _ _ => ?_, nofun, fun _ => ?_, nofun, by simp⟩
            · show c.given = h0 ++ (s.got ++ [MMsg.stop (some rs)]).flatMap _
              rw [f7, ih.given (by rw [hp]; nofun) (by rw [hp]; nofun)]
              simp [MMsg.results]
            · refine ⟨s.got, some rs, l1, rfl, .inr ⟨rs, s.cls.out, b, rfl, h2, ?_, hb2, hb3⟩⟩
              show s.raw ++ _ = _
              rw [ih.raw (by rw [hp]; rfl)]
        · refine ⟨ih.cls, ih.last, ih.num, ih.rows, by simp, nofun, nofun, by simp, ih.sent, ih.mins, fun _ _ => ?_, nofun, fun _ => ?_, nofun, by simp⟩
          · show s.cls.given = h0 ++ (s.got ++ [MMsg.stop none]).flatMap _
            rw [ih.given (by rw [hp]; nofun) (by rw [hp]; nofun)]
            simp [MMsg.results]
          · refine ⟨s.got, none, l1, rfl, .inl ⟨rfl, ?_⟩⟩
            show s.raw ++ _ = _
            rw [ih.raw (by rw [hp]; rfl)]
    · cases hs
    · cases hs
    · cases hs

/-! ### Queues -/

/-- A step of the runner takes messages from the front of the queues. -/
theorem step_queues {s s' : TSt β} (hl : s.cls.last = none) (hn : s.cls.lastNum = 0) (h : s.step = some s') :
    s'.cls.taken ++ s'.cls.inbox = s.cls.taken ++ s.cls.inbox ∧ s'.got ++ s'.mail = s.got ++ s.mail ∧ s'.emitted = s.emitted ∧ s'.arrived = s.arrived := by
  have tell : ∀ (t : TSt β) stop rs next, (t.tell stop rs next).cls.taken = t.cls.taken ∧ (t.tell stop rs next).cls.inbox = t.cls.inbox ∧
      (t.tell stop rs next).got = t.got ∧ (t.tell stop rs next).mail = t.mail ∧ (t.tell stop rs next).emitted = t.emitted ∧ (t.tell stop rs next).arrived = t.arrived := by
    intro t stop rs next
    rcases tell_cases t stop rs next with ⟨e, _, h⟩ | ⟨c, b, h1, _, h⟩
    · rw [h]; exact ⟨rfl, rfl, rfl, rfl, rfl, rfl⟩
    · obtain ⟨_, _, f3, f4, _⟩ := ingest_frame h1
      rw [h]; exact ⟨f3, f4, rfl, rfl, rfl, rfl⟩
  unfold TSt.step at h
  split at h
  · injection h with h; subst h
    split
    · exact ⟨rfl, rfl, rfl, rfl⟩
    · obtain ⟨t1, t2, t3, t4, t5, t6⟩ := tell s false s.h0 .ask
      rw [t1, t2, t3, t4]; exact ⟨rfl, rfl, t5, t6⟩
  · unfold TSt.first at h
    split at h
    · cases h
    · injection h with h; subst h; exact ⟨rfl, rfl, rfl, rfl⟩
    · rename_i l c hc
      injection h with h; subst h
      exact ⟨(suggest_frame hc).2.2.2.2.2.2, rfl, rfl, rfl⟩
  · unfold TSt.firstAnswer at h
    split at h
    · cases h
    · rename_i m ms hm
      dsimp only at h
      split at h
      all_goals injection h with h; subst h
      · obtain ⟨t1, t2, t3, t4, t5, t6⟩ := tell { s with mail := ms, got := s.got ++ [_] } false _ .drain
        rw [t1, t2, t3, t4, t5, t6, hm]; simp
      · obtain ⟨t1, t2, t3, t4, t5, t6⟩ := tell { s with mail := ms, got := s.got ++ [_] } false _ .drain
        rw [t1, t2, t3, t4, t5, t6, hm]; simp
      · rw [hm]; simp
  · injection h with h; subst h
    unfold TSt.drainOnce
    split
    · exact ⟨rfl, rfl, rfl, rfl⟩
    · split
      · exact ⟨rfl, rfl, rfl, rfl⟩
      · rename_i l c hc
        exact ⟨(suggest_frame hc).2.2.2.2.2.2, rfl, rfl, rfl⟩
  · injection h with h; subst h
    unfold TSt.checkOnce
    split
    · exact ⟨rfl, rfl, rfl, rfl⟩
    · rename_i m ms hm
      dsimp only
      split
      · obtain ⟨t1, t2, t3, t4, t5, t6⟩ := tell { s with mail := ms, got := s.got ++ [_] } false _ .check
        rw [t1, t2, t3, t4, t5, t6, hm]; simp
      · obtain ⟨t1, t2, t3, t4, t5, t6⟩ := tell { s with mail := ms, got := s.got ++ [_] } true _ .stopping
        rw [t1, t2, t3, t4, t5, t6, hm]; simp
      · rw [hm]; simp
  · cases h
  · cases h
  · cases h

theorem TReach.queues {h0 : List (Nat × β)} {n : Nat} {s : TSt β} (h : TReach h0 n s) :
    s.cls.taken ++ s.cls.inbox = s.emitted ∧ s.got ++ s.mail = s.arrived := by
  induction h with
  | init => exact ⟨rfl, rfl⟩
  | gen m _ ih => exact ⟨by dsimp only; rw [← List.append_assoc, ih.1], ih.2⟩
  | mgr m _ ih => exact ⟨ih.1, by dsimp only; rw [← List.append_assoc, ih.2]⟩
  | run hr hs ih =>
    obtain ⟨h1, h2, h3, h4⟩ := step_queues hr.inv.last hr.inv.num hs
    exact ⟨h1.trans (ih.1.trans h3.symm), h2.trans (ih.2.trans h4.symm)⟩
  | ends _ _ _ ih => exact ih

theorem reads_loads (bs : List (List (Nat × Option β))) (rest : List (Raw β)) : reads (loads false bs ++ rest) = bs.map .batch ++ reads rest := by
  induction bs with
  | nil => rfl
  | cons b bs ih =>
    show reads (⟨false, .order⟩ :: ⟨false, .rows b⟩ :: (loads false bs ++ rest)) = _
    rw [reads]
    simp [ih]

theorem loads_noStop (bs : List (List (Nat × Option β))) : (loads false bs).any (·.stop) = false := by
  induction bs with
  | nil => rfl
  | cons b bs ih =>
    show ((⟨false, .order⟩ : Raw β) :: ⟨false, .rows b⟩ :: loads false bs).any (·.stop) = false
    simp only [List.any_cons, Bool.false_or]; exact ih

/-! ### The property -/

/-- **C69** To the manager: the messages of the generator are sent once each and in order, the points of each followed by its minima; all that have arrived are sent
when none waits. -/
theorem C69_sent {h0 : List (Nat × β)} {n : Nat} {s : TSt β} (h : TReach h0 n s) :
    ∃ k, s.sent = sendAll (s.emitted.take k) ∧ (s.cls.inbox = [] → s.emitted.take k = s.emitted) := by
  refine ⟨s.cls.taken.length, ?_, fun hi => ?_⟩
  · rw [h.inv.sent, ← h.queues.1, List.take_left]
  · rw [← h.queues.1, hi]; simp

/-- **C69** To the class: messages of the manager are received in order and each once, and their results given to the class in this order, after those of `H0`. -/
theorem C69_given {h0 : List (Nat × β)} {n : Nat} {s : TSt β} (h : TReach h0 n s) (hs : s.pt ≠ .start) (hr : ∀ e, s.pt ≠ .raised e) :
    s.got ++ s.mail = s.arrived ∧ s.cls.given = h0 ++ s.got.flatMap MMsg.results := ⟨h.queues.2, h.inv.given hs hr⟩

/-- **C69** To the generator: nothing before `initial_sample_size` results have come; these then in one batch, numbered by position, and the later results as they
come, in order and unchanged.  Partial: before the runner ends; results that come with a stop are lost (`C69_lost`). -/
theorem C69_read_partial {h0 : List (Nat × β)} {n : Nat} (hn : 0 < n) {s : TSt β} (h : TReach h0 n s) (hs : s.pt ≠ .start) (ho : s.pt.over = false) :
    ((h0 ++ s.got.flatMap MMsg.results).length < n → reads s.raw = []) ∧
    (n ≤ (h0 ++ s.got.flatMap MMsg.results).length → ∃ bs : List (List (Nat × Option β)),
      reads s.raw = .batch (((h0 ++ s.got.flatMap MMsg.results).take n).mapIdx fun i r => (i, some r.2)) :: bs.map .batch ∧
      bs.flatten = ((h0 ++ s.got.flatMap MMsg.results).drop n).map fun r => (r.1, some r.2)) := by
  have hr : ∀ e, s.pt ≠ .raised e := by intro e he; rw [he] at ho; cases ho
  have hraw := h.inv.raw ho
  have hread : reads s.raw = s.cls.out.map .batch := by
    rw [hraw]; have := reads_loads s.cls.out []; simpa [reads] using this
  obtain ⟨p1, p2⟩ := C64_passed hn h.inv.cls
  rw [h.inv.given hs hr] at p1 p2
  refine ⟨fun hl => by rw [hread, p1 hl]; rfl, fun hl => ?_⟩
  obtain ⟨b, os, e1, e2, e3⟩ := p2 hl
  exact ⟨os, by rw [hread, e1, e2]; rfl, e3⟩

/-- **C69** The end: the runner returns only after a stop that was not the first answer, and after the generator was told to stop.  A stop that comes later, without
results or after the initial sample, makes it tell the generator so. -/
theorem C69_end_partial {h0 : List (Nat × β)} {n : Nat} {s : TSt β} (h : TReach h0 n s) :
    (s.pt = .done → ∃ g x, ∃ bs : List (List (Nat × Option β)), g ≠ [] ∧ s.got = g ++ [.stop x] ∧ reads s.raw = bs.map .batch ++ [.stop none]) ∧
    (∀ g x, g ≠ [] → s.got = g ++ [.stop x] → (∀ e, s.pt ≠ .raised e) → s.pt = .stopping ∨ s.pt = .done) ∧
    (s.pt = .stopping → ∀ x : Option (List (Nat × β)), s.got.getLast? = some (.stop x) → x = none ∨ s.cls.told = true → s.raw.any (·.stop) = true) := by
  have hi := h.inv
  refine ⟨fun hd => ?_, fun g x hg he hr => ?_, fun hp x hx hc => ?_⟩
  · obtain ⟨g, x, hg, he, hraw⟩ := hi.stopped (.inr hd)
    have ha := hi.done hd
    rcases hraw with ⟨_, hraw⟩ | ⟨rs, o, b, _, ho, hraw, hb1, hb2⟩
    · exact ⟨g, x, s.cls.out, hg, he, by rw [hraw, reads_loads]; rfl⟩
    · refine ⟨g, x, o, hg, he, ?_⟩
      cases ht : s.cls.told with
      | false =>
        rw [hraw, hb1 ht] at ha
        rw [show loads true ([] : List (List (Nat × Option β))) = [] from rfl, List.append_nil, loads_noStop] at ha
        cases ha
      | true =>
        obtain ⟨y, rfl⟩ := hb2 ht
        rw [hraw, reads_loads]; rfl
  · cases hp : s.pt with
    | stopping => exact .inl rfl
    | done => exact .inr rfl
    | raised e => exact absurd hp (hr e)
    | start => rw [(hi.early (.inl hp)).2] at he; simp at he
    | ask => rw [(hi.early (.inr hp)).2] at he; simp at he
    | waitFirst => rw [(hi.wait hp).1] at he; simp at he
    | drain =>
      have := hi.noStop (.inl hp) (.stop x) (by
        rw [he, List.drop_append_of_le_length (List.length_pos_iff.mpr hg)]; simp)
      obtain ⟨rs, h⟩ := this; cases h
    | check =>
      have := hi.noStop (.inr hp) (.stop x) (by
        rw [he, List.drop_append_of_le_length (List.length_pos_iff.mpr hg)]; simp)
      obtain ⟨rs, h⟩ := this; cases h
  · obtain ⟨g, y, hg, he, hraw⟩ := hi.stopped (.inl hp)
    rw [he] at hx
    simp only [List.getLast?_append, List.getLast?_singleton, Option.some_or, Option.some.injEq, MMsg.stop.injEq] at hx
    subst hx
    rcases hraw with ⟨_, hraw⟩ | ⟨rs, o, b, hrs, ho, hraw, hb1, hb2⟩
    · rw [hraw]; simp
    · rcases hc with hc | hc
      · rw [hc] at hrs; cases hrs
      · obtain ⟨z, rfl⟩ := hb2 hc
        rw [hraw]; simp [loads]

/-- **C69, where the code fails** If the first answer of the manager is a stop and no other message comes, the runner does not return. -/
theorem C69_first_stop {h0 : List (Nat × β)} {n : Nat} {s : TSt β} (h : TReach h0 n s) {x : Option (List (Nat × β))} (ha : s.arrived = [.stop x]) :
    s.pt ≠ .stopping ∧ s.pt ≠ .done := by
  have key : s.pt = .stopping ∨ s.pt = .done → False := by
    intro hp
    obtain ⟨g, y, hg, he, _⟩ := h.inv.stopped hp
    have := h.queues.2
    rw [he, ha] at this
    have hl := congrArg List.length this
    have := List.length_pos_iff.mpr hg
    simp at hl; omega
  exact ⟨fun h => key (.inl h), fun h => key (.inr h)⟩

/-- **C69, where the code fails** Results that come with a stop are never read by the generator. -/
theorem C69_lost {h0 : List (Nat × β)} {n : Nat} {s : TSt β} (h : TReach h0 n s) (hr : ∀ e, s.pt ≠ .raised e) (b : List (Nat × Option β)) :
    .stop (some b) ∉ reads s.raw := by
  have hb : ∀ (bs : List (List (Nat × Option β))) (rest : List (Got β)), .stop (some b) ∉ rest → .stop (some b) ∉ bs.map .batch ++ rest := by
    intro bs rest hr
    simp [hr]
  cases ho : s.pt.over with
  | false =>
    rw [h.inv.raw ho]
    have := reads_loads s.cls.out []
    rw [List.append_nil] at this
    rw [this]; exact hb _ _ (by simp [reads])
  | true =>
    have hp : s.pt = .stopping ∨ s.pt = .done := by
      cases hp : s.pt with
      | stopping => exact .inl rfl
      | done => exact .inr rfl
      | raised e => exact absurd hp (hr e)
      | _ => rw [hp] at ho; cases ho
    obtain ⟨g, y, hg, he, hraw⟩ := h.inv.stopped hp
    rcases hraw with ⟨_, hraw⟩ | ⟨rs, o, b', hrs, ho, hraw, hb1, hb2⟩
    · rw [hraw, reads_loads]; exact hb _ _ (by simp [reads])
    · rw [hraw, reads_loads]
      refine hb _ _ ?_
      cases ht : s.cls.told with
      | false => rw [hb1 ht]; simp [loads, reads]
      | true => obtain ⟨z, rfl⟩ := hb2 ht; simp [loads, reads]

/-- **C69, where the code fails** If a stop with results comes before the initial sample is complete, the generator is not told to stop and the runner waits for ever. -/
theorem C69_sample_stop {h0 : List (Nat × β)} {n : Nat} {s : TSt β} (h : TReach h0 n s) (hp : s.pt = .stopping) (ht : s.cls.told = false)
    {rs : List (Nat × β)} (hx : s.got.getLast? = some (.stop (some rs))) : s.raw.any (·.stop) = false ∧ s.step = none := by
  refine ⟨?_, by simp [TSt.step, hp]⟩
  obtain ⟨g, y, hg, he, hraw⟩ := h.inv.stopped (.inl hp)
  rw [he] at hx
  simp only [List.getLast?_append, List.getLast?_singleton, Option.some_or, Option.some.injEq, MMsg.stop.injEq] at hx
  subst hx
  rcases hraw with ⟨hn, _⟩ | ⟨rs, o, b, hrs, ho, hraw, hb1, hb2⟩
  · cases hn
  · rw [hraw, hb1 ht, show loads true ([] : List (List (Nat × Option β))) = [] from rfl, List.append_nil, loads_noStop]

end Verif.Aposmm
