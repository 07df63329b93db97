import Verif.Aposmm.ThreadTurns

/-
Property C69: concrete executions, and executions in which the code fails.
-/
namespace Verif.Aposmm

/-- Events. -/
inductive TEv
  | gen (m : List Sug)
  | mgr (m : MMsg Nat)
  | run (k : Nat)
  | ends

/-- At most `k` steps of the runner. -/
def tsteps : Nat → TSt Nat → TSt Nat
  | 0, s => s
  | k + 1, s => match s.step with
    | none => s
    | some s' => tsteps k s'

def tev (s : TSt Nat) : TEv → TSt Nat
  | .gen m => { s with cls := { s.cls with inbox := s.cls.inbox ++ [m] }, emitted := s.emitted ++ [m] }
  | .mgr m => { s with mail := s.mail ++ [m], arrived := s.arrived ++ [m] }
  | .run k => tsteps k s
  | .ends => if s.pt = .stopping ∧ s.raw.any (·.stop) = true then { s with pt := .done } else s

def texec (h0 : List (Nat × Nat)) (n : Nat) (es : List TEv) : TSt Nat := es.foldl tev { cls := { size := n }, h0 := h0 }

theorem tsteps_reach {h0 : List (Nat × Nat)} {n : Nat} (k : Nat) {s : TSt Nat} (h : TReach h0 n s) : TReach h0 n (tsteps k s) := by
  induction k generalizing s with
  | zero => exact h
  | succ k ih =>
    unfold tsteps
    cases hs : s.step with
    | none => exact h
    | some s' => exact ih (.run h hs)

theorem texec_reach (h0 : List (Nat × Nat)) (n : Nat) (es : List TEv) : TReach h0 n (texec h0 n es) := by
  have : ∀ (es : List TEv) (s : TSt Nat), TReach h0 n s → TReach h0 n (es.foldl tev s) := by
    intro es
    induction es with
    | nil => exact fun _ h => h
    | cons e es ih =>
      intro s h
      refine ih _ ?_
      cases e with
      | gen m => exact .gen m h
      | mgr m => exact .mgr m h
      | run k => exact tsteps_reach k h
      | ends =>
        simp only [tev]
        split
        · rename_i hc; exact .ends h hc.1 hc.2
        · exact h
  exact this es _ .init

/-- The executions with turns. -/
theorem tsteps_turns {n : Nat} (k : Nat) {s : TSt Nat} (h : Turns n s) : Turns n (tsteps k s) := by
  induction k generalizing s with
  | zero => exact h
  | succ k ih =>
    unfold tsteps
    cases hs : s.step with
    | none => exact h
    | some s' => exact ih (.run h hs)

def turnOk (n : Nat) (s : TSt Nat) : TEv → Bool
  | .gen _ => decide (s.emitted.length ≤ s.cls.out.length)
  | .mgr (.work rs) => decide (works s.arrived < pointsSent s.sent) && (!s.arrived.isEmpty || decide (rs.length = n))
  | .mgr (.stop _) => !s.arrived.isEmpty
  | .run _ | .ends => true

def turnsOk (n : Nat) : List TEv → TSt Nat → Bool
  | [], _ => true
  | e :: es, s => turnOk n s e && turnsOk n es (tev s e)

theorem texec_turns {n : Nat} {es : List TEv} (h : turnsOk n es { cls := { size := n } } = true) : Turns n (texec [] n es) := by
  have : ∀ (es : List TEv) (s : TSt Nat), turnsOk n es s = true → Turns n s → Turns n (es.foldl tev s) := by
    intro es
    induction es with
    | nil => exact fun _ _ h => h
    | cons e es ih =>
      intro s hk h
      simp only [turnsOk, Bool.and_eq_true] at hk
      refine ih _ hk.2 ?_
      have hk := hk.1
      cases e with
      | gen m => exact .gen m h (by simpa [turnOk, genTurn] using hk)
      | mgr m =>
        cases m with
        | work rs =>
          simp only [turnOk, Bool.and_eq_true, Bool.or_eq_true, decide_eq_true_eq] at hk
          refine .work rs h hk.1 fun ha => ?_
          rcases hk.2 with h | h
          · rw [ha] at h; cases h
          · exact h
        | stop x =>
          refine .stop x h fun ha => ?_
          simp [turnOk, ha] at hk
      | run k => exact tsteps_turns k h
      | ends =>
        simp only [tev]
        split
        · rename_i hc; exact .ends h hc.1 hc.2
        · exact h
  exact this es _ h .init

/-- A run: an initial sample of two points, a batch of one point with a minimum, a stop. -/
def goodRun : List TEv :=
  [.gen [⟨0, false⟩, ⟨1, false⟩], .run 9, .mgr (.work [(0, 5), (1, 6)]), .run 3, .gen [⟨2, false⟩, ⟨1, true⟩], .run 3,
   .mgr (.work [(2, 7)]), .run 3, .gen [⟨3, false⟩], .run 3, .mgr (.stop none), .run 3, .ends]

/-- The hypotheses of the theorems are met. -/
example : Turns 2 (texec [] 2 goodRun) := texec_turns (by decide +kernel)
example : (texec [] 2 goodRun).pt = .done ∧
    (texec [] 2 goodRun).sent = [.points [⟨0, false⟩, ⟨1, false⟩], .points [⟨2, false⟩], .update [⟨1, true⟩], .points [⟨3, false⟩]] ∧
    reads (texec [] 2 goodRun).raw = [.batch [(0, some 5), (1, some 6)], .batch [(2, some 7)], .stop none] := by decide +kernel
example : ∃ s : TSt Nat, Turns 2 s ∧ s.pt.over = false ∧ s.pt ≠ .start ∧ s.cls.inbox = [] ∧ s.mail = [] ∧ ¬ genTurn s ∧ mgrTurn s :=
  ⟨texec [] 2 (goodRun.take 2), texec_turns (by decide +kernel), by decide +kernel, by decide +kernel, by decide +kernel, by decide +kernel,
    of_decide_eq_true (p := ¬ (_ : Nat) ≤ _) (by decide +kernel), by unfold mgrTurn; decide +kernel⟩
example : ∃ s : TSt Nat, TReach [(0, 5)] 2 s ∧ s.pt.over = false ∧ s.pt ≠ .start ∧ 2 ≤ ([(0, 5)] ++ s.got.flatMap MMsg.results).length ∧
    reads s.raw = [.batch [(0, some 5), (1, some 6)], .batch [(2, some 7)]] :=
  ⟨texec [(0, 5)] 2 [.gen [⟨1, false⟩], .run 9, .mgr (.work [(4, 6)]), .run 2, .gen [⟨2, false⟩], .run 2, .mgr (.work [(2, 7)]), .run 2], texec_reach _ _ _,
    by decide +kernel, by decide +kernel, by decide +kernel, by decide +kernel⟩

/-- **C69, where the code fails** The manager answers a batch of two points in two messages (as with `async_return`), the generator answers each: if both results are passed on
before the first of these answers is taken, the runner raises an exception, though every message is well-formed. -/
theorem C69_race : ∃ s : TSt Nat, TReach [] 1 s ∧ s.pt = .raised (some .expecting) ∧
    s.arrived = [.work [(0, 5)], .work [(1, 6)], .work [(2, 7)]] ∧ s.emitted = [[⟨0, false⟩], [⟨1, false⟩, ⟨2, false⟩], [⟨3, false⟩], [⟨4, false⟩]] ∧
    reads s.raw = [.batch [(0, some 5)], .batch [(1, some 6)], .batch [(2, some 7)]] :=
  ⟨texec [] 1 [.gen [⟨0, false⟩], .run 9, .mgr (.work [(0, 5)]), .run 1, .gen [⟨1, false⟩, ⟨2, false⟩], .run 2, .mgr (.work [(1, 6)]), .mgr (.work [(2, 7)]), .run 3,
    .gen [⟨3, false⟩], .gen [⟨4, false⟩], .run 9], texec_reach _ _ _, by decide +kernel, by decide +kernel, by decide +kernel, by decide +kernel⟩

/-- **C69, where the code fails** A stop as first answer: without results an exception, with results a loop without end; a stop with results before the initial sample is
complete: the generator is not told. -/
theorem C69_early_stop :
    (∃ s : TSt Nat, TReach [] 2 s ∧ s.arrived = [.stop none] ∧ s.pt = .raised none) ∧
    (∃ s : TSt Nat, TReach [] 2 s ∧ s.arrived = [.stop (some [(0, 5)])] ∧ s.pt = .drain ∧ s.mail = [] ∧ s.cls.inbox = [] ∧ s.raw = []) ∧
    (∃ s : TSt Nat, TReach [] 2 s ∧ s.arrived = [.work [(0, 5)], .stop (some [(1, 6)])] ∧ s.pt = .stopping ∧ s.cls.told = true ∧ reads s.raw = [.stop none]) ∧
    (∃ s : TSt Nat, TReach [] 3 s ∧ s.arrived = [.work [(0, 5)], .stop (some [(1, 6)])] ∧ s.pt = .stopping ∧ s.cls.told = false ∧ s.raw = []) :=
  ⟨⟨texec [] 2 [.gen [⟨0, false⟩, ⟨1, false⟩], .run 9, .mgr (.stop none), .run 9], texec_reach _ _ _, by decide +kernel⟩,
   ⟨texec [] 2 [.gen [⟨0, false⟩, ⟨1, false⟩], .run 9, .mgr (.stop (some [(0, 5)])), .run 9], texec_reach _ _ _, by decide +kernel⟩,
   ⟨texec [] 2 [.gen [⟨0, false⟩, ⟨1, false⟩], .run 9, .mgr (.work [(0, 5)]), .run 2, .mgr (.stop (some [(1, 6)])), .run 9], texec_reach _ _ _, by decide +kernel⟩,
   ⟨texec [] 3 [.gen [⟨0, false⟩, ⟨1, false⟩, ⟨2, false⟩], .run 9, .mgr (.work [(0, 5)]), .run 2, .mgr (.stop (some [(1, 6)])), .run 9], texec_reach _ _ _, by decide +kernel⟩⟩

end Verif.Aposmm
