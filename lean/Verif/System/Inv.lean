import Verif.System.Tidy
/-
The stages of the work of one worker, seen from both sides (helper for Props.lean).
-/
namespace Verif.System
open Verif Verif.Worker

/-- The order being worked on. -/
def phOrder : Ph → Option Order
  | .needRows o | .user o _ _ | .userRows o _ _ _ _ => some o
  | _ => none

/-- 1 if the worker owes an answer. -/
def owe (env : Env) (ph : Ph) (tr : List Ev) : Nat :=
  match ph with
  | .needRows _ => 1
  | .user .. | .userRows .. => if owes env tr then 1 else 0
  | _ => 0

def phTold (ph : Ph) (tr : List Ev) : Bool :=
  match ph with
  | .user .. | .userRows .. => told tr
  | _ => false

def phAr (ph : Ph) (tr : List Ev) : Bool :=
  match ph with
  | .needRows o => o.activeRecv
  | .user .. | .userRows .. => arMode tr
  | _ => false

def nAns (env : Env) (Q : List (List Ev × Out)) : Nat := Q.countP fun x => isAnswer env x.2

/-- Messages of a persistent function that goes on. -/
def GoesOn (env : Env) (x : List Ev × Out) : Prop := ∃ n, x.2 = .data n ∧ (env.msg n).isFinished = false ∧ inPersis x.1 = true

/-- Nothing to do. -/
structure Rest (v : Manager.View) (L : List Msg) (ph : Ph) (Q : List (List Ev × Out)) : Prop where
  v : v = {}
  ph : ph = .idle
  ords : ords L = []
  q : Q = []

/-- An ordinary order: in the channel, being worked on, or answered. -/
structure Plain (v : Manager.View) (L : List Msg) (ph : Ph) (Q : List (List Ev × Out)) : Prop where
  v : v = { busy := true }
  at' : (ph = .idle ∧ Q = [] ∧ ∃ o, ords L = [o] ∧ o.persistent = false) ∨
    ((∃ o, phOrder ph = some o ∧ o.persistent = false) ∧ ords L = [] ∧ Q = []) ∨
    (ph = .idle ∧ ords L = [] ∧ ∃ pre o s r, Q = [(pre, .answer o s r)] ∧ o.persistent = false)

/-- A persistent function: to be started, or running. -/
structure Pers (env : Env) (v : Manager.View) (fl : Bool) (L : List Msg) (ph : Ph) (tr : List Ev) (Q : List (List Ev × Out)) : Prop where
  per : v.persis ≠ 0
  loc : (ph = .idle ∧ ∃ o rest, ords L = o :: rest ∧ o.persistent = true) ∨ ∃ o, phOrder ph = some o ∧ o.persistent = true
  q : ∀ x ∈ Q, GoesOn env x
  cnt : v.recv = false → (ords L).length + owe env ph tr + nAns env Q ≤ 1 ∧
    (v.busy = true ↔ (ords L).length + owe env ph tr + nAns env Q = 1 ∨ v.stopped = true)
  rcv : v.recv = true → v.busy = true ∧ (phAr ph tr = true ∨ (owe env ph tr = 0 ∧ ∃ o rest, ords L = o :: rest ∧ o.activeRecv = true))
  arr : (phAr ph tr = true ∨ ∃ o ∈ ords L, o.activeRecv = true) → v.recv = true
  stp : v.stopped = true ↔ (phTold ph tr = true ∨ pst ∈ L)
  aft1 : phTold ph tr = true → ords L = []
  aft2 : ords (L.dropWhile (· ≠ pst)) = []
  fin : v.stopped = true → fl = true

/-- A persistent function has returned; its last message is on the way. -/
structure Closing (env : Env) (v : Manager.View) (fl : Bool) (L : List Msg) (ph : Ph) (Q : List (List Ev × Out)) : Prop where
  per : v.persis ≠ 0
  busy : v.busy = true
  ph : ph = .idle
  ords : ords L = []
  q : ∃ Q0 pre o s r, Q = Q0 ++ [(pre, .answer o s r)] ∧ o.persistent = true ∧ (s = 11 ∨ s = 12) ∧ (∀ x ∈ Q0, GoesOn env x) ∧
    (v.recv = true ∨ v.stopped = true ∨ nAns env Q0 = 0)
  rcv : v.recv = true → fl = true

inductive Inv (env : Env) (v : Manager.View) (fl : Bool) (L : List Msg) (ph : Ph) (tr : List Ev) (Q : List (List Ev × Out)) : Prop
  | rest (h : Rest v L ph Q)
  | plain (h : Plain v L ph Q)
  | pers (h : Pers env v fl L ph tr Q)
  | closing (h : Closing env v fl L ph Q)

/-- Messages that the manager sends before the finish signal. -/
def Good (m : Msg) : Prop := (∃ t o, m = (t, .work o) ∧ ¬ dropped o) ∨ m = (0, .data 0) ∨ m = (STOP, .sig KILL) ∨ m = pst

theorem ords_nil : ords [] = [] := rfl
theorem ords_work (t : Nat) (o : Order) (l : List Msg) : ords ((t, .work o) :: l) = o :: ords l := rfl
theorem ords_cons {m : Msg} (h : ∀ o, m.2 ≠ .work o) (l : List Msg) : ords (m :: l) = ords l := by
  obtain ⟨t, b⟩ := m
  cases b with
  | work o => exact absurd rfl (h o)
  | _ => rfl
theorem pst_not_work : ∀ o, pst.2 ≠ .work o := by intro o h; cases h

theorem dw_none {L : List Msg} (h : pst ∉ L) : L.dropWhile (· ≠ pst) = [] := by
  induction L with
  | nil => rfl
  | cons m L ih =>
    rw [List.dropWhile_cons, if_pos, ih (fun h' => h (List.mem_cons_of_mem _ h'))]
    simp only [decide_eq_true_eq]; intro h'; exact h (h' ▸ List.mem_cons_self)

theorem dw_append_ne {L : List Msg} {m : Msg} (hm : m ≠ pst) (h : pst ∉ L) : (L ++ [m]).dropWhile (· ≠ pst) = [] :=
  dw_none (by simp only [List.mem_append, List.mem_singleton, not_or]; exact ⟨h, fun h' => hm h'.symm⟩)

theorem ords_dw_append {L : List Msg} {m : Msg} (hm : ∀ o, m.2 ≠ .work o) (h : ords (L.dropWhile (· ≠ pst)) = []) :
    ords ((L ++ [m]).dropWhile (· ≠ pst)) = [] := by
  have h1 : ords [m] = [] := by rw [ords_cons hm]; rfl
  rw [List.dropWhile_append]
  split
  · rw [List.dropWhile_cons]
    split
    · rfl
    · exact h1
  · rw [ords_append, h, h1]; rfl

theorem ords_dw_tail {L : List Msg} {m : Msg} (h : ords ((m :: L).dropWhile (· ≠ pst)) = []) : ords (L.dropWhile (· ≠ pst)) = [] := by
  rw [List.dropWhile_cons] at h
  split at h
  · exact h
  · rename_i hm
    have : m = pst := by simpa using hm
    subst this
    rw [ords_cons pst_not_work] at h
    have hs : ∀ l : List Msg, ords l = [] → ords (l.dropWhile (· ≠ pst)) = [] := by
      intro l hl
      have := List.takeWhile_append_dropWhile (p := fun m => decide (m ≠ pst)) (l := l)
      rw [← this, ords_append] at hl
      exact (List.append_eq_nil_iff.mp hl).2
    exact hs L h

theorem dw_pst (L : List Msg) : (pst :: L).dropWhile (· ≠ pst) = pst :: L := by
  rw [List.dropWhile_cons]; simp

/-! ### Facts about what has been sent -/

theorem good_sent {w : Nat} {tr : List Manager.Ev} (hT : Manager.Always Manager.Tidy tr) (hns : Manager.Ev.stop w ∉ tr) :
    ∀ m ∈ sentTo w tr, Good m ∧ (m = pst → Manager.hasFinal tr = true) := by
  induction tr with
  | nil => intro m hm; cases hm
  | cons e tr ih =>
    obtain ⟨h1, h2⟩ := Manager.always_cons.mp hT
    have hfin : Manager.hasFinal tr = true → Manager.hasFinal (e :: tr) = true := by
      intro h; rw [show e :: tr = [e] ++ tr from rfl, Manager.hasFinal_append, h, Bool.or_true]
    have key : ∀ m', msgTo w e = some m' → Good m' ∧ (m' = pst → Manager.hasFinal (e :: tr) = true) := by
      intro m' hm'
      cases e <;> simp only [msgTo, reduceCtorEq] at hm' <;> (try (split at hm' <;> simp only [Option.some.injEq, reduceCtorEq] at hm'))
      case order.isTrue to key wk hto =>
        subst hm'
        refine ⟨.inl ⟨_, _, rfl, ?_⟩, fun h => by simp [pst] at h⟩
        rintro ⟨a, b⟩
        have := h1.2.2.1
        simp only [orderOf] at a b
        cases ha : wk.activeRecv with
        | none => rw [ha] at a; cases a
        | some x => rw [ha] at this; rw [this rfl] at b; cases b
      case rows.isTrue => subst hm'; exact ⟨.inr (.inl rfl), fun h => by cases h⟩
      case stop.isTrue to hto => subst hto; exact absurd List.mem_cons_self hns
      case kill.isTrue => subst hm'; exact ⟨.inr (.inr (.inl rfl)), fun h => by cases h⟩
      case persisStop.isTrue => subst hm'; exact ⟨.inr (.inr (.inr rfl)), fun _ => hfin h1.1⟩
    intro m hm
    rcases List.mem_append.mp hm with hm | hm
    · obtain ⟨a, b⟩ := ih h2 (fun h => hns (List.mem_cons_of_mem _ h)) m hm
      exact ⟨a, fun h => hfin (b h)⟩
    · cases hx : msgTo w e with
      | none => rw [hx] at hm; cases hm
      | some m' =>
        rw [hx] at hm
        simp only [Option.toList, List.mem_singleton] at hm
        subst hm
        exact key _ hx

end Verif.System
