import Verif.System.Fail
/-
Concrete executions of manager and workers, for the examples: the events of a given run of the manager are woven with moves of
the workers and the channels.
-/
namespace Verif.System
open Verif Verif.Worker

/-- The next event of the manager, or a move of a channel or a worker. -/
inductive Move
  | man | carry (w : Nat) | tick (w : Nat)
deriving DecidableEq, Repr

/-- A state with the number of events of the manager so far. -/
structure Woven where
  i : Nat
  tr : List Manager.Ev
  ws : Nat → W

/-- The contents of the message that is the `i`-th event. -/
def msgAt (evs : List Manager.Ev) (i : Nat) : Manager.Data :=
  match evs[i]? with
  | some (.recv _ (.data d)) => d
  | _ => { calcType := 0, calcStatus := 0, rows := [], out := .none }

/-- Workers whose user functions number their messages by the event by which they are received. -/
def envOf (F : Nat → UserF) (kind : Nat → Comms.Kind) (evs : List Manager.Ev) : Env := { F := F, kind := kind, msg := msgAt evs }

def saysB (i : Nat) (pre : List Ev) : Out → Manager.Msg → Bool
  | .data x, .data d => decide (x = i) && decide (d.rows = hRows pre) && (d.persistent == inPersis pre) &&
      (decide (d.calcType = Alloc.EVAL_SIM) || decide (d.calcType = Alloc.EVAL_GEN))
  | .answer o s _, .data d => decide (d.calcType = o.tag) && decide (d.calcStatus = s.toNat) && decide (d.rows = hRows pre) &&
      (d.persistent == o.persistent) && (d.keepState == false)
  | .err, .err => true
  | _, _ => false

def possibleB (i : Nat) (tr : List Manager.Ev) (ws : Nat → W) : Manager.Ev → Bool
  | .recv w m => !fromWorker m || (match onTheWay w tr (ws w) with | (pre, x) :: _ => saysB i pre x m | [] => false)
  | _ => true

def weave (env : Env) (evs : List Manager.Ev) : List Move → Woven → Option Woven
  | [], s => some s
  | .man :: ms, s =>
    match evs[s.i]? with
    | none => none
    | some e => if possibleB s.i s.tr s.ws e then weave env evs ms ⟨s.i + 1, e :: s.tr, fun w => deliver w e (s.ws w)⟩ else none
  | .carry w :: ms, s => weave env evs ms { s with ws := fun v => if v = w then { s.ws v with chan := (s.ws v).chan.carry } else s.ws v }
  | .tick w :: ms, s => weave env evs ms { s with ws := fun v => if v = w then Worker.tick (env.F v) (s.ws v) else s.ws v }

theorem saysB_sound {F : Nat → UserF} {kind : Nat → Comms.Kind} {evs : List Manager.Ev} {i w : Nat} {pre : List Ev} {x : Out} {m : Manager.Msg}
    (hm : evs[i]? = some (.recv w m)) (h : saysB i pre x m = true) : Says (envOf F kind evs) pre x m := by
  cases x with
  | data x =>
    cases m with
    | data d =>
      simp only [saysB, Bool.and_eq_true, Bool.or_eq_true, decide_eq_true_eq, beq_iff_eq] at h
      obtain ⟨⟨⟨rfl, h2⟩, h3⟩, h4⟩ := h
      refine ⟨?_, h4⟩
      simp only [envOf, msgAt, hm]
      rw [← h2, ← h3]
    | _ => cases h
  | answer o s r =>
    cases m with
    | data d =>
      simp only [saysB, Bool.and_eq_true, decide_eq_true_eq, beq_iff_eq] at h
      obtain ⟨⟨⟨⟨h1, h2⟩, h3⟩, h4⟩, h5⟩ := h
      refine ⟨d.out, ?_⟩
      rw [← h1, ← h2, ← h3, ← h4]
      cases d; simp only at h5; rw [h5]
    | _ => cases h
  | err =>
    cases m with
    | err => trivial
    | _ => cases h

theorem possibleB_sound {F : Nat → UserF} {kind : Nat → Comms.Kind} {evs : List Manager.Ev} {i : Nat} {tr : List Manager.Ev} {ws : Nat → W}
    {e : Manager.Ev} (he : evs[i]? = some e) (h : possibleB i tr ws e = true) : Possible (envOf F kind evs) tr ws e := by
  cases e with
  | recv w m =>
    intro hf
    simp only [possibleB, hf, Bool.not_true, Bool.false_or] at h
    split at h
    · rename_i pre x rest hq
      exact ⟨pre, x, rest, hq, saysB_sound he h⟩
    · cases h
  | _ => trivial

theorem weave_joint {F : Nat → UserF} {kind : Nat → Comms.Kind} {evs : List Manager.Ev} (ms : List Move) {s s' : Woven}
    (hj : Joint (envOf F kind evs) s.tr s.ws) (ht : s.tr = (evs.take s.i).reverse)
    (h : weave (envOf F kind evs) evs ms s = some s') : Joint (envOf F kind evs) s'.tr s'.ws ∧ s'.tr = (evs.take s'.i).reverse := by
  induction ms generalizing s with
  | nil => simp only [weave, Option.some.injEq] at h; subst h; exact ⟨hj, ht⟩
  | cons m ms ih =>
    cases m with
    | man =>
      simp only [weave] at h
      cases he : evs[s.i]? with
      | none => rw [he] at h; cases h
      | some e =>
        rw [he] at h
        simp only at h
        split at h
        · rename_i hp
          refine ih (Joint.man e hj (possibleB_sound he hp)) ?_ h
          show e :: s.tr = _
          rw [List.take_add_one, he, List.reverse_append, ← ht]; rfl
        · cases h
    | carry w => exact ih (s := { s with ws := _ }) (Joint.carry w hj) ht h
    | tick w => exact ih (s := { s with ws := _ }) (Joint.tick w hj) ht h

/-- Everything woven together from the beginning. -/
def woven (F : Nat → UserF) (kind : Nat → Comms.Kind) (tr : List Manager.Ev) (ms : List Move) : Option Woven :=
  weave (envOf F kind tr.reverse) tr.reverse ms ⟨0, [], fun w => { chan := { kind := kind w } }⟩

theorem woven_joint {F : Nat → UserF} {kind : Nat → Comms.Kind} {tr : List Manager.Ev} {ms : List Move} {s : Woven}
    (h : woven F kind tr ms = some s) (hi : s.i = tr.length) : Joint (envOf F kind tr.reverse) tr s.ws := by
  obtain ⟨h1, h2⟩ := weave_joint ms .init rfl h
  rw [hi, ← List.length_reverse, List.take_length, List.reverse_reverse] at h2
  rw [h2] at h1; exact h1

def discB (env : Env) (e : Ev) (pre : List Ev) : Bool :=
  match e with
  | .out (.data x) => inPersis pre && !(env.msg x).isFinished && ((env.msg x).keepState || owes env pre || arMode pre)
  | .out (.answer o s _) => !o.persistent || ((decide (s = 11) || decide (s = 12)) && (told pre || (owes env pre && !arMode pre)))
  | .ret u => decide (u ≠ .pairStatus FINISH) && decide (u ≠ .triple FINISH)
  | _ => true

def onEvB (P : Ev → List Ev → Bool) : List Ev → Bool
  | [] => true
  | e :: tr => P e tr && onEvB P tr

theorem onEvB_sound {P : Ev → List Ev → Bool} {Q : Ev → List Ev → Prop} (hPQ : ∀ e pre, P e pre = true → Q e pre) {tr : List Ev}
    (h : onEvB P tr = true) : OnEv Q tr := by
  induction tr with
  | nil => intro post e pre he; cases post <;> cases he
  | cons a tr ih =>
    simp only [onEvB, Bool.and_eq_true] at h
    intro post e pre he
    cases post with
    | nil => simp only [List.nil_append, List.cons.injEq] at he; obtain ⟨rfl, rfl⟩ := he; exact hPQ _ _ h.1
    | cons b post => simp only [List.cons_append, List.cons.injEq] at he; exact ih h.2 post e pre he.2

theorem disciplined_of {env : Env} {tr : List Ev} (h : onEvB (discB env) tr = true) : Disciplined env tr := by
  refine onEvB_sound (fun e pre h => ?_) h
  cases e with
  | out x =>
    cases x with
    | data x =>
      simp only [discB, Bool.and_eq_true, Bool.or_eq_true, Bool.not_eq_true'] at h
      exact ⟨h.1.1, h.1.2, fun hk => by rw [hk] at h; simpa using h.2⟩
    | answer o s r =>
      simp only [discB, Bool.and_eq_true, Bool.or_eq_true, Bool.not_eq_true', decide_eq_true_eq] at h
      intro ho
      rcases h with h | h
      · rw [ho] at h; cases h
      · exact h
    | err => trivial
  | ret u => simp only [discB, Bool.and_eq_true, decide_eq_true_eq] at h; exact h
  | _ => trivial

def carefulB (tr : List Ev) : Bool := tr.all fun
  | .utook (_, .work o) => decide (o.rows ≠ [])
  | .ptook m => decide (m.1 = STOP)
  | _ => true

theorem careful_of {tr : List Ev} (h : carefulB tr = true) : Careful tr := by
  rw [carefulB, List.all_eq_true] at h
  constructor
  · rintro ⟨t, b⟩ o hm rfl
    simpa using h _ hm
  · intro m hm
    simpa using h _ hm

end Verif.System
