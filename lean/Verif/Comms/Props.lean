import Verif.Comms.Model
/-!
Property C36: over a communicator every message is received once and in order, also with push-back.
-/
namespace Verif.Comms

variable {α : Type}

/-! ### Specification -/

/-- Messages sent. -/
def sents : List (Ev α) → List α
  | [] => []
  | .sent m :: evs => m :: sents evs
  | _ :: evs => sents evs

/-- Messages received and not pushed back again, in order (`acc`: those before). -/
def kept (acc : List α) : List (Ev α) → List α
  | [] => acc
  | .got m :: evs => kept (acc ++ [m]) evs
  | .back _ :: evs => kept acc.dropLast evs
  | _ :: evs => kept acc evs

/-- Only a received message is pushed back, and at most one between two receives; `last` is the last message received,
if it can be pushed back. -/
def proper [DecidableEq α] (last : Option α) : List (Ev α) → Bool
  | [] => true
  | .got m :: evs => proper (some m) evs
  | .back m :: evs | .refused m :: evs => decide (last = some m) && proper none evs
  | _ :: evs => proper last evs

/-! ### Proofs -/

/-- Nothing is lost: kept, pushed back, ready and under way. -/
private def content (c : Chan α) : List α := c.buf.toList ++ c.inbox ++ c.pend

theorem sents_append (a b : List (Ev α)) : sents (a ++ b) = sents a ++ sents b := by
  induction a with
  | nil => rfl
  | cons e a ih => cases e <;> simp [sents, ih]

private theorem acts_content [DecidableEq α] (as : List (Act α)) (c : Chan α) (acc : List α) (last : Option α)
    (hl : ∀ m, last = some m → c.buf = none ∧ acc.getLast? = some m) (hp : proper last (acts c as).2 = true) :
    kept acc (acts c as).2 ++ content (acts c as).1 = acc ++ content c ++ sents (acts c as).2 := by
  induction as generalizing c acc last with
  | nil => simp [acts, kept, sents]
  | cons a as ih =>
    cases a with
    | send m =>
      simp only [acts, act, List.cons_append, List.nil_append, proper, kept, sents] at hp ⊢
      rw [ih (c.send m) acc last (fun m h => hl m h) hp]
      simp [content, Chan.send]
    | carry =>
      simp only [acts, act, List.nil_append] at hp ⊢
      have hb : c.carry.buf = c.buf := by simp only [Chan.carry]; split <;> rfl
      rw [ih _ acc last (fun m h => by rw [hb]; exact hl m h) hp]
      congr 2
      simp only [content, Chan.carry]
      split
      · rfl
      · rename_i m rest h; simp [h]
    | flag =>
      simp only [acts, act, List.cons_append, List.nil_append, proper, kept, sents] at hp ⊢
      exact ih _ acc last hl hp
    | recv =>
      simp only [acts, act] at hp ⊢
      cases hb : c.buf with
      | some m =>
        simp only [Chan.recv, hb, List.cons_append, List.nil_append, proper, kept, sents] at hp ⊢
        rw [ih _ (acc ++ [m]) (some m) (fun m' h => ⟨rfl, by simpa using h⟩) hp]
        simp [content, hb]
      | none =>
        cases hi : c.inbox with
        | nil =>
          simp only [Chan.recv, hb, hi, List.cons_append, List.nil_append, proper, kept, sents] at hp ⊢
          exact ih _ acc last hl hp
        | cons m rest =>
          simp only [Chan.recv, hb, hi, List.cons_append, List.nil_append, proper, kept, sents] at hp ⊢
          rw [ih ⟨c.kind, c.pend, rest, none⟩ (acc ++ [m]) (some m) (fun m' h => ⟨rfl, by simpa using h⟩) hp]
          simp [content, hb, hi]
    | push m =>
      simp only [acts, act] at hp ⊢
      by_cases hr : c.push m = none
      · exfalso
        simp only [hr, List.cons_append, List.nil_append, proper, Bool.and_eq_true, decide_eq_true_eq] at hp
        simp only [Chan.push, (hl m hp.1).1] at hr
        cases c.kind <;> simp at hr
      · cases hc : c.push m with
        | none => exact absurd hc hr
        | some c' =>
          simp only [hc, List.cons_append, List.nil_append, proper, kept, sents, Bool.and_eq_true, decide_eq_true_eq] at hp ⊢
          obtain ⟨h1, h2⟩ := hl m hp.1
          have hc' : c' = { c with buf := some m } := by
            simp only [Chan.push] at hc
            split at hc
            · simp at hc
            · simpa using hc.symm
          subst hc'
          rw [ih _ acc.dropLast none (fun m' h => by simp at h) hp.2]
          have h3 : acc = acc.dropLast ++ [m] := by
            rw [List.getLast?_eq_some_iff] at h2
            obtain ⟨ys, rfl⟩ := h2
            simp
          conv => rhs; rw [h3]
          simp [content, h1]

/-! ## C36 -/

/-- Whatever sender, system and receiver do, if the receiver pushes back only the message it received last: the messages
received (and not pushed back) followed by those that can still be received are the messages sent, in order. -/
theorem C36_in_order [DecidableEq α] (k : Kind) (as : List (Act α)) (hp : proper none (acts { kind := k } as).2 = true) :
    kept [] (acts { kind := k } as).2 ++
      ((acts { kind := k } as).1.buf.toList ++ (acts { kind := k } as).1.inbox ++ (acts { kind := k } as).1.pend) =
    sents (acts { kind := k } as).2 := by
  have := acts_content as { kind := k } [] none (fun m h => by simp at h) hp
  simpa [content] using this

/-- In particular what is received is a beginning of what is sent. -/
theorem C36_prefix [DecidableEq α] (k : Kind) (as : List (Act α)) (hp : proper none (acts { kind := k } as).2 = true) :
    kept [] (acts { kind := k } as).2 <+: sents (acts { kind := k } as).2 :=
  ⟨_, C36_in_order k as hp⟩

/-- `n` times: the system carries a message, the receiver receives. -/
def drainActs : Nat → List (Act α)
  | 0 => []
  | n + 1 => .carry :: .recv :: drainActs n

private theorem drain_got (n : Nat) (c : Chan α) (h : (c.buf.toList ++ c.inbox ++ c.pend).length = n) :
    (acts c (drainActs n)).2 = (c.buf.toList ++ c.inbox ++ c.pend).map .got ∧
    (acts c (drainActs n)).1.buf = none ∧ (acts c (drainActs n)).1.inbox = [] ∧ (acts c (drainActs n)).1.pend = [] := by
  induction n generalizing c with
  | zero =>
    have h0 := List.eq_nil_of_length_eq_zero h
    simp only [List.append_eq_nil_iff, Option.toList_eq_nil_iff] at h0
    simp [acts, drainActs, h0.1.1, h0.1.2, h0.2]
  | succ n ih =>
    obtain ⟨k, pend, inbox, buf⟩ := c
    simp only [drainActs, acts, act, Chan.carry, Chan.recv, List.nil_append] at h ⊢
    cases buf with
    | some m =>
      cases pend with
      | nil =>
        have := ih ⟨k, [], inbox, none⟩ (by simpa using h)
        simp only [Option.toList_none, List.nil_append, List.append_nil, Option.toList_some, List.cons_append, List.map_cons] at this ⊢
        exact ⟨by rw [this.1], this.2⟩
      | cons p rest =>
        have := ih ⟨k, rest, inbox ++ [p], none⟩ (by simpa using h)
        simp only [Option.toList_none, List.nil_append, Option.toList_some, List.cons_append, List.map_cons, List.append_assoc] at this ⊢
        exact ⟨by rw [this.1], this.2⟩
    | none =>
      cases inbox with
      | cons q inbox =>
        cases pend with
        | nil =>
          have := ih ⟨k, [], inbox, none⟩ (by simpa using h)
          simp only [Option.toList_none, List.nil_append, List.append_nil, List.cons_append, List.map_cons] at this ⊢
          exact ⟨by rw [this.1], this.2⟩
        | cons p rest =>
          have := ih ⟨k, rest, inbox ++ [p], none⟩ (by simpa using h)
          simp only [Option.toList_none, List.nil_append, List.cons_append, List.map_cons, List.append_assoc] at this ⊢
          exact ⟨by rw [this.1], this.2⟩
      | nil =>
        cases pend with
        | nil => simp at h
        | cons p rest =>
          have := ih ⟨k, rest, [], none⟩ (by simpa using h)
          simp only [Option.toList_none, List.nil_append, List.cons_append, List.map_cons] at this ⊢
          exact ⟨by rw [this.1], this.2⟩

/-- And everything can be received: after any such use, if the system carries all messages and the receiver goes on
receiving, it has in the end received exactly the messages sent, in order. -/
theorem C36_complete [DecidableEq α] (k : Kind) (as : List (Act α)) (hp : proper none (acts { kind := k } as).2 = true) :
    ∃ n, kept [] (acts { kind := k } as).2 ++ kept [] (acts (acts { kind := k } as).1 (drainActs n)).2 = sents (acts { kind := k } as).2 := by
  have h := C36_in_order k as hp
  refine ⟨((acts { kind := k } as).1.buf.toList ++ (acts { kind := k } as).1.inbox ++ (acts { kind := k } as).1.pend).length, ?_⟩
  rw [(drain_got _ (acts { kind := k } as).1 rfl).1]
  have : ∀ (l acc : List α), kept acc (l.map Ev.got) = acc ++ l := by
    intro l
    induction l with
    | nil => simp [kept]
    | cons m l ih => intro acc; simp [kept, ih]
  rw [this, List.nil_append]
  exact h

/-- Three messages, the second is pushed back and received again. -/
def demoActs : List (Act Nat) := [.send 1, .send 2, .carry, .recv, .carry, .recv, .push 2, .send 3, .carry, .flag, .recv, .recv, .recv]

example : (acts { kind := .queue } demoActs).2 = [.sent 1, .sent 2, .got 1, .got 2, .back 2, .sent 3, .flag true, .got 2, .got 3, .nothing] ∧
    proper none (acts { kind := .queue } demoActs).2 = true ∧ kept [] (acts { kind := .queue } demoActs).2 = [1, 2, 3] := by decide

/-- Witness: two push-backs without a receive in between lose a message (`QComm`), -/
theorem C36_push_twice_witness : (acts { kind := .queue } [.send 1, .send 2, .carry, .carry, .recv, .recv, .push 2, .push 1, .recv, .recv]).2 =
    [.sent 1, .sent 2, .got 1, .got 2, .back 2, .back 1, .got 1, (.nothing : Ev Nat)] := by decide

/-- … or raise an exception (`MPIComm`). -/
theorem C36_push_twice_mpi : (acts { kind := .mpi } [.send 1, .send 2, .carry, .carry, .recv, .recv, .push 2, .push 1, .recv, .recv]).2 =
    [.sent 1, .sent 2, .got 1, .got 2, .back 2, .refused 1, .got 2, (.nothing : Ev Nat)] := by decide

private theorem acts_refused [DecidableEq α] (as : List (Act α)) (c : Chan α) (last : Option α)
    (hl : ∀ m, last = some m → c.buf = none) (hp : proper last (acts c as).2 = true) : ∀ m, Ev.refused m ∉ (acts c as).2 := by
  induction as generalizing c last with
  | nil => simp [acts]
  | cons a as ih =>
    cases a with
    | send m =>
      simp only [acts, act, List.cons_append, List.nil_append, proper] at hp ⊢
      simpa using ih (c.send m) last hl hp
    | carry =>
      simp only [acts, act, List.nil_append] at hp ⊢
      have hb : c.carry.buf = c.buf := by simp only [Chan.carry]; split <;> rfl
      exact ih _ last (fun m h => by rw [hb]; exact hl m h) hp
    | flag =>
      simp only [acts, act, List.cons_append, List.nil_append, proper] at hp ⊢
      simpa using ih _ last hl hp
    | recv =>
      simp only [acts, act] at hp ⊢
      cases hb : c.buf with
      | some m =>
        simp only [Chan.recv, hb, List.cons_append, List.nil_append, proper] at hp ⊢
        simpa using ih _ (some m) (fun _ _ => rfl) hp
      | none =>
        cases hi : c.inbox with
        | nil =>
          simp only [Chan.recv, hb, hi, List.cons_append, List.nil_append, proper] at hp ⊢
          simpa using ih _ last hl hp
        | cons m rest =>
          simp only [Chan.recv, hb, hi, List.cons_append, List.nil_append, proper] at hp ⊢
          simpa using ih ⟨c.kind, c.pend, rest, none⟩ (some m) (fun _ _ => rfl) hp
    | push m =>
      simp only [acts, act] at hp ⊢
      by_cases hr : c.push m = none
      · exfalso
        simp only [hr, List.cons_append, List.nil_append, proper, Bool.and_eq_true, decide_eq_true_eq] at hp
        simp only [Chan.push, hl m hp.1] at hr
        cases c.kind <;> simp at hr
      · cases hc : c.push m with
        | none => exact absurd hc hr
        | some c' =>
          simp only [hc, List.cons_append, List.nil_append, proper, Bool.and_eq_true, decide_eq_true_eq] at hp ⊢
          simpa using ih c' none (fun m h => by simp at h) hp.2

/-- With this use `push_to_buffer` never raises an exception. -/
theorem C36_never_refused [DecidableEq α] (k : Kind) (as : List (Act α)) (hp : proper none (acts { kind := k } as).2 = true) (m : α) :
    Ev.refused m ∉ (acts { kind := k } as).2 :=
  acts_refused as _ none (fun m h => by simp at h) hp m

/-- Witness: a pushed-back message does not show in `QComm.mail_flag` (it does in `MPIComm.mail_flag`). -/
theorem C36_mail_flag_witness :
    (acts { kind := .queue } [.send 1, .carry, .recv, .push 1, .flag, .recv]).2 = [.sent 1, .got 1, .back 1, .flag false, (.got 1 : Ev Nat)] ∧
    (acts { kind := .mpi } [.send 1, .carry, .recv, .push 1, .flag, .recv]).2 = [.sent 1, .got 1, .back 1, .flag true, (.got 1 : Ev Nat)] := by
  decide

/-- Witness: `kill_pending` of `MPIComm` loses messages that are not yet under way. -/
theorem C36_kill_pending_witness :
    (acts (acts ({ kind := .mpi } : Chan Nat) [.send 1, .send 2, .carry]).1.killPending [.carry, .recv, .recv]).2 = [.got 1, .nothing] := by decide

/-! ### The creator's end of a thread or process -/

def arrived : List (LAct α) → List (TMsg α)
  | [] => []
  | .arrive m :: as => m :: arrived as
  | _ :: as => arrived as

/-- Messages returned. -/
def gots : List (LRes α) → List α
  | [] => []
  | .got m :: rs => m :: gots rs
  | _ :: rs => gots rs

private theorem local_content (as : List (LAct α)) (l : Local α) (hd : l.done = none) :
    l.inbox ++ arrived as = (gots (l.run as).2).map .msg ++ ((l.run as).1.done.map TMsg.result).toList ++ (l.run as).1.inbox := by
  have hdone : ∀ (as : List (LAct α)) (l : Local α) (b : Bool), l.done = some b →
      (l.run as).1.done = some b ∧ gots (l.run as).2 = [] ∧ (l.run as).1.inbox = l.inbox ++ arrived as := by
    intro as
    induction as with
    | nil => intro l b h; simp [Local.run, h, gots, arrived]
    | cons a as ih =>
      intro l b h
      cases a with
      | arrive m =>
        obtain ⟨h1, h2, h3⟩ := ih { l with inbox := l.inbox ++ [m] } b h
        exact ⟨h1, h2, by simp only [Local.run, h3, arrived, List.append_assoc, List.singleton_append]⟩
      | recv =>
        have hr : l.recv = (l, .finished) := by simp [Local.recv, h]
        simp only [Local.run, hr, gots, arrived]
        exact ih l b h
  induction as generalizing l with
  | nil => simp [Local.run, arrived, gots, hd]
  | cons a as ih =>
    cases a with
    | arrive m =>
      simp only [Local.run, arrived]
      rw [← ih { l with inbox := l.inbox ++ [m] } hd]
      simp
    | recv =>
      simp only [Local.run, arrived]
      cases hi : l.inbox with
      | nil =>
        have hr : l.recv = (l, .timeout) := by simp [Local.recv, hd, hi]
        rw [hr]
        simp only [gots]
        rw [← ih l hd, hi]
      | cons m rest =>
        cases m with
        | msg m =>
          have hr : l.recv = ({ l with inbox := rest }, .got m) := by simp [Local.recv, hd, hi]
          rw [hr]
          simp only [gots, List.map_cons, List.cons_append]
          rw [← ih { l with inbox := rest } hd]
        | result ok =>
          have hr : l.recv = ({ inbox := rest, done := some ok }, .finished) := by simp [Local.recv, hd, hi]
          rw [hr]
          obtain ⟨h1, h2, h3⟩ := hdone as ⟨rest, some ok⟩ ok rfl
          simp only [gots, h1, h2, h3]
          simp

/-- At the end of the creator of a worker thread or process: the messages received are the first of those that arrived,
in order; after result or exception of the thread has arrived nothing more is received. -/
theorem C36_local (as : List (LAct α)) :
    ∃ rest, arrived as = (gots (Local.run {} as).2).map .msg ++ ((Local.run {} as).1.done.map TMsg.result).toList ++ rest :=
  ⟨_, by have := local_content as {} rfl; simpa using this⟩

/-- A worker that sends two messages and ends. -/
def localActs : List (LAct Nat) := [.arrive (.msg 1), .recv, .recv, .arrive (.msg 2), .arrive (.result true), .recv, .recv, .recv]

example : (Local.run {} localActs).2 = [.got 1, .timeout, .got 2, .finished, .finished] ∧ (Local.run {} localActs).1.done = some true := by decide

end Verif.Comms
