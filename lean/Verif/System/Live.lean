import Verif.System.Course
import Verif.Manager.EndsSims
/-!
Property C70: a whole run of manager and workers comes to its end.
-/
namespace Verif.System
open Verif Verif.Worker
open Verif.Manager (Always Start Iter passes Obliging HistOk Productive Unnumbered CancelledFirst Bundled AllocEnv)

/-- Manager and workers at some time. -/
structure Conf where
  tr : List Manager.Ev
  ws : Nat → W

/-- What can happen at a time: an event of the manager, a channel carries a message, a worker takes a step, or nothing. -/
inductive Turn
  | man (e : Manager.Ev)
  | carry (w : Nat)
  | tick (w : Nat)
  | wait

/-- One step of manager and workers (the steps of `Joint`). -/
def Next (env : Env) (a : Conf) : Turn → Conf → Prop
  | .man e, b => Possible env a.tr a.ws e ∧ b = ⟨e :: a.tr, fun w => deliver w e (a.ws w)⟩
  | .carry w, b => b = ⟨a.tr, fun v => if v = w then { a.ws v with chan := (a.ws v).chan.carry } else a.ws v⟩
  | .tick w, b => b = ⟨a.tr, fun v => if v = w then tick (env.F v) (a.ws v) else a.ws v⟩
  | .wait, b => b = a

/-- A course of events without end, in which the record of the manager grows through `T 0`, `T 1`, … and everybody gets their turn:
channels carry messages and workers take steps again and again, and what has been sent to the manager is received some time, unless
`over` holds. -/
structure Track (env : Env) (workers : List Nat) (T : Nat → List Manager.Ev) (over : Prop) where
  at_ : Nat → Conf
  turn : Nat → Turn
  init : at_ 0 = ⟨[], fun w => { chan := { kind := env.kind w } }⟩
  next : ∀ n, Next env (at_ n) (turn n) (at_ (n + 1))
  inside : ∀ n, ∃ k, (at_ n).tr <:+ T k
  passes : ∀ k, ∃ n, (at_ n).tr = T k
  carries : ∀ w ∈ workers, ∀ n, ∃ m, n ≤ m ∧ turn m = .carry w
  ticks : ∀ w ∈ workers, ∀ n, ∃ m, n ≤ m ∧ turn m = .tick w
  mail : ∀ w ∈ workers, ∀ n, onTheWay w (at_ n).tr ((at_ n).ws w) ≠ [] → over ∨ ∃ m, n ≤ m ∧ got w (at_ n).tr < got w (at_ m).tr

/-- A course of events in which the manager makes the passes `f` of the main loop; what has been sent to the manager is received some
time, unless the main loop ends before. -/
abbrev Course (env : Env) (c : Start) (f : Nat → Iter) : Type :=
  Track env c.workers (fun k => (c.loop (passes f k)).1.tr) (∃ k, (c.loop (passes f k)).2 ≠ .running)

variable {env : Env} {c : Start} {f : Nat → Iter} {V : List Nat} {T : Nat → List Manager.Ev} {over : Prop}

theorem Track.joint (C : Track env V T over) (n : Nat) : Joint env (C.at_ n).tr (C.at_ n).ws := by
  induction n with
  | zero => rw [C.init]; exact .init
  | succ n ih =>
    have h := C.next n
    cases ht : C.turn n with
    | man e => rw [ht] at h; rw [h.2]; exact .man e ih h.1
    | carry w => rw [ht] at h; rw [show C.at_ (n + 1) = _ from h]; exact .carry w ih
    | tick w => rw [ht] at h; rw [show C.at_ (n + 1) = _ from h]; exact .tick w ih
    | wait => rw [ht] at h; rw [show C.at_ (n + 1) = _ from h]; exact ih

theorem Track.grow1 (C : Track env V T over) (n : Nat) : (C.at_ n).tr <:+ (C.at_ (n + 1)).tr := by
  have h := C.next n
  cases ht : C.turn n with
  | man e => rw [ht] at h; rw [h.2]; exact List.suffix_cons _ _
  | carry w => rw [ht] at h; rw [show C.at_ (n + 1) = _ from h]; exact List.suffix_refl _
  | tick w => rw [ht] at h; rw [show C.at_ (n + 1) = _ from h]; exact List.suffix_refl _
  | wait => rw [ht] at h; rw [show C.at_ (n + 1) = _ from h]; exact List.suffix_refl _

theorem Track.grow (C : Track env V T over) {n m : Nat} (h : n ≤ m) : (C.at_ n).tr <:+ (C.at_ m).tr := by
  induction m with
  | zero => rw [Nat.le_zero.mp h]; exact List.suffix_refl _
  | succ m ih =>
    by_cases hm : n = m + 1
    · rw [hm]; exact List.suffix_refl _
    · exact List.IsSuffix.trans (ih (by omega)) (C.grow1 m)

/-- In the main loop the manager does what `Neat` says. -/
theorem neat_run {b : Bundled} (hb : b.plain = true) {aenv : AllocEnv} (hg : c.sp.finalGenSend = false) {its : List Iter}
    (hits : ∀ it ∈ its, it.uses b aenv c.sp) (hrun : (c.loop its).2 = .running) :
    Always (Neat true) (c.loop its).1.tr ∧ Manager.Whole (c.loop its).1.tr := by
  have hr := (Manager.mainLoop_reach (sp := c.sp) its c.st (P := b.P aenv c.sp) (s0 := c.st) (fun x hm s => Manager.uses_P (hits x hm) s) .init).1 hrun
  change Manager.Reach c.sp (b.P aenv c.sp) c.st .loop (c.loop its).1 at hr
  obtain ⟨h1, h2⟩ := hr.tidy hg Manager.start_vi Manager.start_tr Manager.start_pending rfl
  refine ⟨?_, h2⟩
  have h3 := Manager.orders_main hr rfl (Manager.plain_orders hb hr)
  have h4 := hr.noFinal Manager.start_tr rfl
  have h5 := hr.noStop Manager.start_tr nofun
  have h6 := (hr.vi Manager.start_vi (by rw [Manager.start_tr]; rfl) Manager.start_pending rfl).1
  have h7 : Manager.hasExc (c.loop its).1.tr = false := by rw [← h6.exc]; exact hr.noExc rfl rfl nofun
  intro post e pre he
  have a1 := h1 post e pre he
  have a3 := h3 post e pre he
  have hm : e ∈ (c.loop its).1.tr := by rw [he]; simp
  cases e with
  | order to key wk =>
    obtain ⟨b1, b2, b3, b4⟩ := a1
    obtain ⟨d1, d2⟩ := a3
    refine ⟨b1, b2.imp id (·.1), ?_, d2.imp (·.1) id, .inl ⟨d1, nofun⟩⟩
    cases ha : wk.activeRecv with
    | none => rfl
    | some x => rw [ha] at b3; rw [b3 rfl] at d1; cases d1
  | persisStop to => exact h4 to hm
  | stop to => have := h5 to hm; rw [h7] at this; cases this
  | kill to i => rfl
  | _ => trivial

/-- With `only_persistent_gens` too, if no kill signals are sent, no points are told to the generators in active-receive mode, and
generators run on workers of their own. -/
theorem neat_gens {o : Alloc.UserOpts} {aenv : AllocEnv} (hg : c.sp.finalGenSend = false) (hk : c.sp.kill = false) (ha : o.altType = false)
    (hact : o.activeRecvGen = false) {its : List Iter} (hits : ∀ it ∈ its, it.uses (.persGens o) aenv c.sp) (hrun : (c.loop its).2 = .running) :
    Always (Neat false) (c.loop its).1.tr ∧ Manager.Whole (c.loop its).1.tr := by
  have hr := (Manager.mainLoop_reach (sp := c.sp) its c.st (P := (Bundled.persGens o).P aenv c.sp) (s0 := c.st) (fun x hm s => Manager.uses_P (hits x hm) s) .init).1 hrun
  change Manager.Reach c.sp ((Bundled.persGens o).P aenv c.sp) c.st .loop (c.loop its).1 at hr
  obtain ⟨h1, h2⟩ := hr.tidy hg Manager.start_vi Manager.start_tr Manager.start_pending rfl
  refine ⟨?_, h2⟩
  have h3 := Manager.orders_main hr rfl (Manager.opg_orders hr)
  have h3' := Manager.orders_main hr rfl (Manager.opg_simOrders ha hr)
  have h3'' := Manager.orders_main hr rfl (Manager.gens_orders hr)
  have h4 := hr.noFinal Manager.start_tr rfl
  have h5 := hr.noStop Manager.start_tr nofun
  have h6 := (hr.vi Manager.start_vi (by rw [Manager.start_tr]; rfl) Manager.start_pending rfl).1
  have h7 : Manager.hasExc (c.loop its).1.tr = false := by rw [← h6.exc]; exact hr.noExc rfl rfl nofun
  have h8 := hr.noKill hk Manager.start_tr rfl
  intro post e pre he
  have a1 := h1 post e pre he
  have a3 := h3 post e pre he
  have a3' := h3' post e pre he
  have a3'' := h3'' post e pre he
  have hm : e ∈ (c.loop its).1.tr := by rw [he]; simp
  cases e with
  | order to key wk =>
    obtain ⟨b1, b2, b3, b4⟩ := a1
    change Manager.OpgShape o wk at a3
    change wk.tag = Alloc.EVAL_SIM → _ at a3'
    obtain ⟨_, _, _, d4⟩ := a3''
    refine ⟨b1, b2.imp id (·.1), ?_, a3.imp (·.1) (·.1), ?_⟩
    · rcases a3 with ⟨_, _, h⟩ | ⟨_, h⟩
      · rw [h]; rfl
      · rw [h, hact]; rfl
    · rcases d4 with h | ⟨d5, d6, d7⟩
      · obtain ⟨e1, e2⟩ := a3' h
        exact .inl ⟨e2, fun _ => e1⟩
      · refine .inr ⟨d6, rfl, d5, fun hne => ?_⟩
        rcases d7 with h | h
        · exact h.nonempty
        · exact absurd h.idle.2 hne
  | persisStop to => exact h4 to hm
  | stop to => have := h5 to hm; rw [h7] at this; cases this
  | kill to i => exact absurd hm (h8 to i)
  | _ => trivial

/-! ### Getting on -/

def notWork (m : Msg) : Bool := match m.2 with | .work _ => false | _ => true

/-- How far the worker is from its answer. -/
def rank (B : Nat → Order → Option Body → Nat) (s : W) : Nat × Nat :=
  match s.ph with
  | .user o rows h => if o.persistent then (if asked h then (1, 0) else (3, ((left s.chan).takeWhile notWork).length)) else (1, B s.n o rows - h.length)
  | .needRows _ | .userRows .. => (2, 0)
  | .idle => (3, ((left s.chan).takeWhile notWork).length)
  | _ => (0, 0)

def Below (a b : Nat × Nat) : Prop := a.1 < b.1 ∨ (a.1 = b.1 ∧ a.2 < b.2)

theorem below_wf : WellFounded Below := by
  have : Below = Prod.Lex (· < ·) (· < ·) := by
    funext a b
    obtain ⟨a1, a2⟩ := a
    obtain ⟨b1, b2⟩ := b
    simp only [Below, Prod.lex_def]
  rw [this]
  exact (Prod.lex ⟨_, Nat.lt_wfRel.wf⟩ ⟨_, Nat.lt_wfRel.wf⟩).wf

theorem takeWhile_work {L : List Msg} (l : List Msg) (h : ords L ≠ []) : (L ++ l).takeWhile notWork = L.takeWhile notWork := by
  induction L with
  | nil => exact absurd rfl h
  | cons m L ih =>
    rw [List.cons_append, List.takeWhile_cons, List.takeWhile_cons]
    cases hm : notWork m with
    | false => rfl
    | true =>
      simp only [if_true]
      rw [ih]
      intro h'
      apply h
      rw [ords_cons _ L, h']
      intro o ho
      simp [notWork, ho] at hm

/-- Nothing is taken; messages may arrive. -/
structure Quiet (s s' : W) : Prop where
  ph : s'.ph = s.ph
  n : s'.n = s.n
  left : ∃ l, left s'.chan = left s.chan ++ l
  inbox : ∃ l, s'.chan.inbox = s.chan.inbox ++ l

theorem Quiet.refl (s : W) : Quiet s s := ⟨rfl, rfl, ⟨[], (List.append_nil _).symm⟩, ⟨[], (List.append_nil _).symm⟩⟩

theorem Quiet.trans {a b d : W} (h1 : Quiet a b) (h2 : Quiet b d) : Quiet a d := by
  obtain ⟨l1, e1⟩ := h1.left
  obtain ⟨l2, e2⟩ := h2.left
  obtain ⟨i1, f1⟩ := h1.inbox
  obtain ⟨i2, f2⟩ := h2.inbox
  exact ⟨h2.ph.trans h1.ph, h2.n.trans h1.n, ⟨l1 ++ l2, by rw [e2, e1, List.append_assoc]⟩, ⟨i1 ++ i2, by rw [f2, f1, List.append_assoc]⟩⟩

theorem quiet_deliver (w : Nat) (e : Manager.Ev) (s : W) : Quiet s (deliver w e s) := by
  refine ⟨(deliver_tr w e s).2.1, ?_, ⟨_, (deliver_tr w e s).2.2⟩, ⟨[], ?_⟩⟩ <;> unfold deliver <;> cases msgTo w e <;> simp [Comms.Chan.send]

theorem quiet_carry (s : W) : Quiet s { s with chan := s.chan.carry } := by
  refine ⟨rfl, rfl, ⟨[], by simp only [left_carry, List.append_nil]⟩, ?_⟩
  dsimp only
  unfold Comms.Chan.carry
  cases s.chan.pend with
  | nil => exact ⟨[], (List.append_nil _).symm⟩
  | cons m rest => exact ⟨[m], rfl⟩

/-- The worker waits for a message, and an order is among those that it has not taken. -/
theorem Quiet.rank {B : Nat → Order → Option Body → Nat} {s s' : W} (h : Quiet s s') (hu : ∀ o rows l, s.ph = .user o rows l → o.persistent = true →
    asked l = true ∨ Waits s.ph) (hi : Waits s.ph → ords (Worker.left s.chan) ≠ []) : rank B s' = rank B s := by
  obtain ⟨l, hl⟩ := h.left
  unfold System.rank
  rw [h.ph, h.n]
  cases hp : s.ph with
  | idle =>
    dsimp only
    rw [hl, takeWhile_work l (hi (.inl hp))]
  | user o rows l =>
    dsimp only
    split
    · split
      · rfl
      · rename_i h1 h2
        rw [hl, takeWhile_work _ (hi ((hu o rows l hp h1).resolve_left h2))]
    · rfl
  | _ => rfl

/-- A step of the worker that is not the last one brings it nearer to its answer. -/
theorem Moved.below {B : Nat → Order → Option Body → Nat} {s s' : W} (h : Moved B s s') :
    (s' = s ∧ (Waits s.ph ∨ Lacks s.ph) ∧ s.chan.inbox = []) ∨ Below (rank B s') (rank B s) := by
  cases h with
  | stay h1 h2 h3 => exact .inl ⟨h1, h2, h3⟩
  | skip m h1 h2 h3 h4 =>
    refine .inr (.inr ?_)
    have : notWork m = true := by
      unfold notWork
      split
      · rename_i o ho; exact absurd ho (h4 o)
      · rfl
    simp only [rank, h1, h2, h3, List.takeWhile_cons, this, if_true, List.length_cons, true_and]
    exact Nat.lt_succ_self _
  | took m o h1 h2 h3 =>
    refine .inr (.inl ?_)
    rcases h2 with h2 | h2 <;> simp only [rank, h1, h2, asked, if_true]
    · omega
    · split <;> (try dsimp only) <;> omega
  | called o x h1 h2 =>
    refine .inr (.inl ?_)
    simp only [rank, h1, h2, asked, if_true]
    split <;> (try dsimp only) <;> omega
  | looked o rows h x hp h1 h2 h3 h4 =>
    refine .inr (.inr ?_)
    simp only [rank, h1, h2, h3, hp, Bool.false_eq_true, if_false, List.length_cons, true_and]
    show B s.n o rows - (h.length + 1) < B s.n o rows - h.length
    omega
  | heard o rows h t o' hp h1 h2 =>
    refine .inr (.inl ?_)
    simp only [rank, h1, h2, hp, if_true, asked, Bool.false_eq_true, if_false]
    omega
  | given o rows h t o' b hp h1 h2 =>
    refine .inr (.inl ?_)
    simp only [rank, h1, h2, hp, if_true, asked]
    omega

theorem carry_inbox {ch : Comms.Chan Msg} (hb : ch.buf = none) (hl : left ch ≠ []) : ch.carry.inbox ≠ [] := by
  unfold Comms.Chan.carry
  cases hp : ch.pend with
  | nil =>
    intro h
    apply hl
    simp only [left, hb, hp, Option.toList, List.nil_append, List.append_nil]; exact h
  | cons m rest => simp

/-- Whoever owes an answer sends one, and the manager receives it. -/
theorem Track.answers {K : Bool} (C : Track env V T over) {w : Nat} (hF : Simple (env.F w)) (hA : K = false → Asking env (env.F w)) {n : Nat}
    (hst : ∀ m, n ≤ m → SInv env K (Manager.owes w (C.at_ m).tr) (Manager.view w (C.at_ m).tr).persis ((C.at_ m).ws w) (onTheWay w (C.at_ m).tr ((C.at_ m).ws w)))
    (hsig : ∀ m, n ≤ m → ∀ x ∈ sentTo w (C.at_ m).tr, ∀ i, x.2 = .sig i → i = KILL ∧ K = true) (hfr : ∀ m, n ≤ m → Framed (sentTo w (C.at_ m).tr))
    (hwhole : ∀ k, Manager.Whole (T k)) (hov : ¬ over) (hw : w ∈ V) (ho : Manager.owes w (C.at_ n).tr ≠ none) :
    ∃ m, n ≤ m ∧ got w (C.at_ n).tr < got w (C.at_ m).tr := by
  refine Classical.byContradiction fun hno => ?_
  have hmono : ∀ {a b : Nat}, a ≤ b → got w (C.at_ a).tr ≤ got w (C.at_ b).tr := fun h => (C.grow h).sublist.countP_le
  have hgot : ∀ m, n ≤ m → got w (C.at_ m).tr = got w (C.at_ n).tr := by
    intro m hm
    have h1 := hmono hm
    have h2 : ¬ got w (C.at_ n).tr < got w (C.at_ m).tr := fun h => hno ⟨m, hm, h⟩
    omega
  have hQ : ∀ m, n ≤ m → onTheWay w (C.at_ m).tr ((C.at_ m).ws w) = [] := by
    intro m hm
    refine Classical.byContradiction fun hq => ?_
    rcases C.mail w hw m hq with hk | ⟨m', hm', hlt⟩
    · exact hov hk
    · rw [hgot m hm, hgot m' (by omega)] at hlt; omega
  have howes : ∀ m, n ≤ m → Manager.owes w (C.at_ m).tr ≠ none := by
    intro m hm
    induction m with
    | zero => rw [Nat.le_zero.mp hm] at ho; exact ho
    | succ m ih =>
      by_cases hnm : n = m + 1
      · rw [← hnm]; exact ho
      · have ih := ih (by omega)
        have h := C.next m
        cases ht : C.turn m with
        | carry v => rw [ht] at h; rw [show C.at_ (m + 1) = _ from h]; exact ih
        | tick v => rw [ht] at h; rw [show C.at_ (m + 1) = _ from h]; exact ih
        | wait => rw [ht] at h; rw [show C.at_ (m + 1) = _ from h]; exact ih
        | man e =>
          rw [ht] at h
          have hG := hgot (m + 1) (by omega)
          rw [h.2] at hG ⊢
          rw [← hgot m (by omega)] at hG
          dsimp only at hG ⊢
          cases e with
          | order to key wk =>
            simp only [Manager.owes]
            split <;> simp_all
          | recv v msg =>
            cases msg with
            | data d =>
              simp only [Manager.owes]
              split
              · rename_i hv
                subst hv
                have : got v (.recv v (.data d) :: (C.at_ m).tr) = got v (C.at_ m).tr + 1 := by simp [got, isGot, fromWorker]
                omega
              · exact ih
            | _ => exact ih
          | _ => exact ih
  have hidle : ∀ m, n ≤ m → Waits ((C.at_ m).ws w).ph → ords (left ((C.at_ m).ws w).chan) ≠ [] := by
    intro m hm hp
    have h1 := howes m hm
    have h2 := hQ m hm
    have hno : ∀ {o : Order} {rows : Option Body} {l : List Obs}, ((C.at_ m).ws w).ph = .user o rows l → o.persistent = false ∨ asked l = true → False := by
      intro o rows l h hor
      rcases hp with hp | ⟨o', rows', l', hp, hper⟩
      · rw [hp] at h; cases h
      · rw [hp] at h
        injection h with e1 e2 e3
        subst e1 e3
        rcases hor with hor | hor
        · rw [hper] at hor; cases hor
        · cases hor
    cases (hst m hm).stage with
    | rest z a b d e => exact absurd a h1
    | sent o x z a b d e => rw [d]; nofun
    | need o x z a b d e => rcases hp with hp | ⟨_, _, _, hp, _⟩ <;> rw [hp] at b <;> cases b
    | work o r h x y z a b d e => exact (hno b (.inl y)).elim
    | done o pre st r x y z a b d e g => rw [h2] at e; cases e
    | ask o r h x y z a b d e g => exact (hno b (.inr g)).elim
    | said o r h pre i x y z a b d e g => rw [h2] at e; cases e
    | wait o r h x y z a b d e => exact absurd a h1
    | next o r h o' x y z a b d e => rw [d]; nofun
    | more o r h t o' x y z a b d e => rcases hp with hp | ⟨_, _, _, hp, _⟩ <;> rw [hp] at b <;> cases b
    | over o pre r x y z a b d e => rw [h2] at e; cases e
  have hask : ∀ m, n ≤ m → ∀ o rows l, ((C.at_ m).ws w).ph = .user o rows l → o.persistent = true → asked l = true ∨ Waits ((C.at_ m).ws w).ph := by
    intro m hm o rows l hp hper
    cases (hst m hm).stage with
    | rest z a b d e => rw [hp] at b; cases b
    | sent o x z a b d e => rw [hp] at b; cases b
    | need o x z a b d e => rw [hp] at b; cases b
    | work o r h x y z a b d e => rw [hp] at b; injection b with b; subst b; rw [hper] at y; cases y
    | done o pre st r x y z a b d e g => rw [hp] at b; cases b
    | ask o r h x y z a b d e g => rw [hp] at b; injection b with _ _ b; subst b; exact .inl g
    | said o r h pre i x y z a b d e g => exact .inr (.inr ⟨_, _, _, b, y⟩)
    | wait o r h x y z a b d e => exact .inr (.inr ⟨_, _, _, b, y⟩)
    | next o r h o' x y z a b d e => exact .inr (.inr ⟨_, _, _, b, y⟩)
    | more o r h t o' x y z a b d e => rw [hp] at b; cases b
    | over o pre r x y z a b d e => rw [hp] at b; cases b
  let B : Nat → Order → Option Body → Nat := bound hF
  -- one step
  have hstep : ∀ m, n ≤ m → (Quiet ((C.at_ m).ws w) ((C.at_ (m + 1)).ws w) ∨ Below (rank B ((C.at_ (m + 1)).ws w)) (rank B ((C.at_ m).ws w))) ∧
      (C.turn m = .tick w → Moved B ((C.at_ m).ws w) ((C.at_ (m + 1)).ws w)) := by
    intro m hm
    have h := C.next m
    cases ht : C.turn m with
    | man e => rw [ht] at h; rw [h.2]; exact ⟨.inl (quiet_deliver w e _), nofun⟩
    | wait => rw [ht] at h; rw [show C.at_ (m + 1) = _ from h]; exact ⟨.inl (Quiet.refl _), nofun⟩
    | carry v =>
      rw [ht] at h
      rw [show C.at_ (m + 1) = _ from h]
      refine ⟨.inl ?_, nofun⟩
      dsimp only
      split
      · exact quiet_carry _
      · exact Quiet.refl _
    | tick v =>
      rw [ht] at h
      have h0 : C.at_ (m + 1) = _ := h
      by_cases hv : w = v
      · subst hv
        have hs' : (C.at_ (m + 1)).ws w = tick (env.F w) ((C.at_ m).ws w) := by rw [h0]; simp
        have hj := C.joint m
        have hM : Moved B ((C.at_ m).ws w) ((C.at_ (m + 1)).ws w) := by
          rw [hs']
          refine ((tick_simple hF hA (bound_spec hF) (hj.got_le w) (hj.fine w).2.2 ?_ ?_ (hst m hm)).2 (howes m hm) (hQ m hm)).resolve_right (fun hx => hx ?_)
          · rw [hj.taken w]; exact hfr m hm
          · intro x hx
            exact hsig m hm x (by rw [← hj.taken w]; exact List.mem_append_right _ hx)
          · have := hQ (m + 1) (by omega)
            rw [h0] at this
            simpa [onTheWay] using this
        refine ⟨?_, fun _ => hM⟩
        rcases hM.below with ⟨hb, _⟩ | hb
        · left; rw [hb]; exact Quiet.refl _
        · exact .inr hb
      · rw [h0]
        refine ⟨.inl ?_, fun hx => absurd (Turn.tick.inj hx).symm hv⟩
        dsimp only
        rw [if_neg hv]
        exact Quiet.refl _
  -- the rank cannot go down for ever
  have main : ∀ r m, n ≤ m → rank B ((C.at_ m).ws w) = r → False := by
    intro r
    induction r using below_wf.induction with
    | _ r ih =>
    intro m hm hr
    have hstuck : ∀ m', n ≤ m' → ¬ Below (rank B ((C.at_ m').ws w)) r := fun m' h1 h2 => ih _ h2 m' h1 rfl
    have hq : ∀ d, rank B ((C.at_ (m + d)).ws w) = r ∧ Quiet ((C.at_ (m + d)).ws w) ((C.at_ (m + d + 1)).ws w) := by
      intro d
      have key : rank B ((C.at_ (m + d)).ws w) = r → Quiet ((C.at_ (m + d)).ws w) ((C.at_ (m + d + 1)).ws w) := by
        intro he
        rcases (hstep (m + d) (by omega)).1 with h | h
        · exact h
        · rw [he] at h; exact absurd h (hstuck _ (by omega))
      induction d with
      | zero => exact ⟨hr, key hr⟩
      | succ d ihd =>
        obtain ⟨i1, i2⟩ := ihd (fun he => by
          rcases (hstep (m + d) (by omega)).1 with h | h
          · exact h
          · rw [he] at h; exact absurd h (hstuck _ (by omega)))
        have : rank B ((C.at_ (m + (d + 1))).ws w) = r := by
          rw [show m + (d + 1) = m + d + 1 by omega, i2.rank (hask (m + d) (by omega)) (hidle (m + d) (by omega))]; exact i1
        exact ⟨this, key this⟩
    have hquiet : ∀ a b, m ≤ a → a ≤ b → Quiet ((C.at_ a).ws w) ((C.at_ b).ws w) := by
      intro a b ha hab
      induction b with
      | zero => rw [Nat.le_zero.mp hab]; exact Quiet.refl _
      | succ b ihb =>
        by_cases h : a = b + 1
        · rw [h]; exact Quiet.refl _
        · have := (hq (b - m)).2
          rw [show m + (b - m) = b by omega] at this
          exact (ihb (by omega)).trans this
    have hstay : ∀ a, m ≤ a → C.turn a = .tick w → (Waits ((C.at_ a).ws w).ph ∨ Lacks ((C.at_ a).ws w).ph) ∧ ((C.at_ a).ws w).chan.inbox = [] := by
      intro a ha ht
      have hM := (hstep a (by omega)).2 ht
      have hr2 := (hq (a - m)).1
      have hr3 := (hq (a + 1 - m)).1
      rw [show m + (a - m) = a by omega] at hr2
      rw [show m + (a + 1 - m) = a + 1 by omega] at hr3
      rcases hM.below with ⟨_, hb⟩ | hb
      · exact hb
      · rw [hr2, hr3] at hb; unfold Below at hb; omega
    have hph : Waits ((C.at_ m).ws w).ph ∨ Lacks ((C.at_ m).ws w).ph := by
      obtain ⟨a, ha, ht⟩ := C.ticks w hw m
      have := (hstay a ha ht).1
      rw [(hquiet m a (Nat.le_refl _) ha).ph] at this
      exact this
    -- something is there to be taken
    have hleft : ∃ a, m ≤ a ∧ left ((C.at_ a).ws w).chan ≠ [] := by
      rcases hph with hp | hp
      · refine ⟨m, Nat.le_refl _, fun hl => hidle m hm hp ?_⟩
        rw [hl]; rfl
      · obtain ⟨k, hk⟩ := C.inside m
        obtain ⟨a, ha⟩ := C.passes k
        have hb : ∃ b, m ≤ b ∧ (C.at_ b).tr = T k := by
          by_cases hma : m ≤ a
          · exact ⟨a, hma, ha⟩
          · refine ⟨m, Nat.le_refl _, ?_⟩
            have h1 := C.grow (n := a) (m := m) (by omega)
            rw [ha] at h1
            exact hk.eq_of_length_le h1.length_le
        obtain ⟨b, hmb, hb⟩ := hb
        refine ⟨b, hmb, fun hl => ?_⟩
        have h1 := (C.joint b).taken w
        rw [hl, List.append_nil] at h1
        have h2 := (hst b (by omega)).frame
        rw [(hquiet m b (Nat.le_refl _) hmb).ph, h1, hb, hwhole k w] at h2
        rcases hp with ⟨o, hp⟩ | ⟨o, rows, l, t, o', hp⟩ <;> rw [hp] at h2 <;> simp [want] at h2
    obtain ⟨a, hma, hl⟩ := hleft
    obtain ⟨b, hab, hcb⟩ := C.carries w hw a
    have hl2 : left ((C.at_ b).ws w).chan ≠ [] := by
      obtain ⟨l, hl2⟩ := (hquiet a b hma hab).left
      rw [hl2]; simp [hl]
    have hbuf : ((C.at_ b).ws w).chan.buf = none := by
      refine (hst b (by omega)).buf ?_
      rw [(hquiet m b (Nat.le_refl _) (by omega)).ph]
      intro o rows l hp
      rcases hph with (h | ⟨o', rows', l', h, hper⟩) | ⟨o', h⟩ | ⟨o', rows', l', t, o2, h⟩ <;> rw [hp] at h <;> cases h
      exact hper
    have hin : ((C.at_ (b + 1)).ws w).chan.inbox ≠ [] := by
      have h := C.next b
      rw [hcb] at h
      rw [show C.at_ (b + 1) = _ from h]
      simp only [if_true]
      exact carry_inbox hbuf hl2
    obtain ⟨d, hbd, htd⟩ := C.ticks w hw (b + 1)
    have h3 := (hstay d (by omega) htd).2
    obtain ⟨l, h4⟩ := (hquiet (b + 1) d (by omega) hbd).inbox
    rw [h3] at h4
    have := congrArg List.length h4
    simp only [List.length_nil, List.length_append] at this
    have : 0 < ((C.at_ (b + 1)).ws w).chan.inbox.length := List.length_pos_iff.mpr hin
    omega
  exact main _ n (Nat.le_refl _) rfl

theorem Track.answered {K : Bool} (C : Track env V T over) (hF : ∀ w, Simple (env.F w)) (hA : K = false → ∀ w, Asking env (env.F w))
    (hst : ∀ n, Steady env K (C.at_ n).tr (C.at_ n).ws) (hneat : ∀ n, Always (Neat K) (C.at_ n).tr) (hfr : ∀ n w, Framed (sentTo w (C.at_ n).tr))
    (hwhole : ∀ k, Manager.Whole (T k)) (hov : ¬ over)
    {w : Nat} (hw : w ∈ V) {n : Nat} (ho : Manager.owes w (C.at_ n).tr ≠ none) :
    ∃ m, n ≤ m ∧ got w (C.at_ n).tr < got w (C.at_ m).tr :=
  C.answers (hF w) (fun hK => hA hK w) (fun m _ => (hst m).inv w) (fun m _ => neat_sent w (hneat m)) (fun m _ => hfr m w) hwhole hov hw ho

end Verif.System
