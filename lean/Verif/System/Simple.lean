import Verif.System.Back
import Verif.Manager.PropsEnds
/-
Manager and workers together in the main loop: the stages of an order, from the manager and back (helper for Live.lean).
-/
namespace Verif.System
open Verif Verif.Worker
open Verif.Manager (view hasFinal Always)

variable {env : Env} {tr : List Manager.Ev} {ws : Nat → W}

/-- A result that does not pretend to be the end of a persistent function or of the worker. -/
def OkOut (u : UOut) : Prop := u ≠ .long ∧ ∀ s, u.own = some s → s ≠ FINISH ∧ s ≠ 11 ∧ s ≠ 12

/-- User functions that, if they are not persistent, look for kill signals, if anything, and return after finitely many looks. -/
structure Simple (F : UserF) : Prop where
  acts : ∀ n o rows h, o.persistent = false → F n o rows h = .poll ∨ ∃ u, F n o rows h = .ret u ∧ OkOut u
  ends : ∀ n o rows, o.persistent = false → ∃ B, ∀ h, B ≤ h.length → ∃ u, F n o rows h = .ret u

/-- Has the persistent function been asked for something that it has not sent: it has just been called, or has received results? -/
def asked : List Obs → Bool
  | [] | .input .. :: _ => true
  | _ => false

/-- A message with points: from a generator, not intermediate and not the last one. -/
structure OkMsg (d : Manager.Data) : Prop where
  gen : d.calcType = Alloc.EVAL_GEN
  keep : d.keepState = false
  fin : d.isFinished = false

/-- Persistent generators that answer: when called, and when they get results, they send something and wait for more, or end. -/
structure Asking (env : Env) (F : UserF) : Prop where
  acts : ∀ n o rows h, o.persistent = true → asked h = true →
    (∃ x, F n o rows h = .send x ∧ OkMsg (env.msg x)) ∨ ∃ u, F n o rows h = .ret u ∧ u.own = some 12
  waits : ∀ n o rows h, o.persistent = true → F n o rows (.sent :: h) = .recv true

/-- What the manager does in the main loop.  `K`: there are kill signals and no persistent functions; otherwise there are no kill
signals, and persistent functions are generators, which get orders with rows while they run. -/
def Neat (K : Bool) (pre : List Manager.Ev) : Manager.Ev → Prop
  | .order to _ wk => hasFinal pre = false ∧ ((view to pre).busy = false ∨ (view to pre).recv = true) ∧ wk.activeRecv.getD false = false ∧
      (wk.tag = Alloc.EVAL_SIM ∨ wk.tag = Alloc.EVAL_GEN) ∧
      ((wk.persistent = false ∧ (K = false → (view to pre).persis = 0)) ∨
       (wk.persistent = true ∧ K = false ∧ wk.tag = Alloc.EVAL_GEN ∧ ((view to pre).persis ≠ 0 → wk.rows ≠ [])))
  | .kill _ _ => K = true
  | .persisStop _ | .stop _ => False
  | _ => True

/-- The order as the manager gives it. -/
structure OkOrder (K : Bool) (o : Order) : Prop where
  tag : okTag o
  ar : o.activeRecv = false
  pers : o.persistent = true → K = false ∧ o.tag = EVAL_GEN

/-- What the manager has noted about a worker that has got the order. -/
def pv (o : Order) : Nat := if o.persistent then EVAL_GEN else 0

/-- Where an order is; `ow`: the kind of order that the manager waits for; `p`: the persistent function that it has noted. -/
inductive Stage (env : Env) (K : Bool) (ow : Option Nat) (p : Nat) (s : W) (Q : List (List Ev × Out)) : Prop
  | rest (h0 : p = 0) (h1 : ow = none) (h2 : s.ph = .idle) (h3 : ords (left s.chan) = []) (h4 : Q = [])
  | sent (o : Order) (ho : OkOrder K o) (h0 : p = pv o) (h1 : ow = some o.tag) (h2 : s.ph = .idle) (h3 : ords (left s.chan) = [o]) (h4 : Q = [])
  | need (o : Order) (ho : OkOrder K o) (h0 : p = pv o) (h1 : ow = some o.tag) (h2 : s.ph = .needRows o) (h3 : ords (left s.chan) = []) (h4 : Q = [])
  | work (o : Order) (rows : Option Body) (h : List Obs) (ho : OkOrder K o) (hp : o.persistent = false) (h0 : p = 0) (h1 : ow = some o.tag)
      (h2 : s.ph = .user o rows h) (h3 : ords (left s.chan) = []) (h4 : Q = [])
  | done (o : Order) (pre : List Ev) (st : Int) (r : Bool) (ho : OkOrder K o) (hp : o.persistent = false) (h0 : p = 0) (h1 : ow = some o.tag)
      (h2 : s.ph = .idle) (h3 : ords (left s.chan) = []) (h4 : Q = [(pre, .answer o st r)]) (h5 : st ≠ 11 ∧ st ≠ 12)
  | ask (o : Order) (rows : Option Body) (h : List Obs) (ho : OkOrder K o) (hp : o.persistent = true) (h0 : p = EVAL_GEN) (h1 : ow = some EVAL_GEN)
      (h2 : s.ph = .user o rows h) (h3 : ords (left s.chan) = []) (h4 : Q = []) (h5 : asked h = true)
  | said (o : Order) (rows : Option Body) (h : List Obs) (pre : List Ev) (x : Nat) (ho : OkOrder K o) (hp : o.persistent = true) (h0 : p = EVAL_GEN)
      (h1 : ow = some EVAL_GEN) (h2 : s.ph = .user o rows (.sent :: h)) (h3 : ords (left s.chan) = []) (h4 : Q = [(pre, .data x)])
      (h5 : OkMsg (env.msg x) ∧ inPersis pre = true)
  | wait (o : Order) (rows : Option Body) (h : List Obs) (ho : OkOrder K o) (hp : o.persistent = true) (h0 : p = EVAL_GEN) (h1 : ow = none)
      (h2 : s.ph = .user o rows (.sent :: h)) (h3 : ords (left s.chan) = []) (h4 : Q = [])
  | next (o : Order) (rows : Option Body) (h : List Obs) (o' : Order) (ho : OkOrder K o) (hp : o.persistent = true) (h0 : p = EVAL_GEN)
      (h1 : ow = some EVAL_GEN) (h2 : s.ph = .user o rows (.sent :: h)) (h3 : ords (left s.chan) = [o']) (h4 : Q = []) (h5 : o'.rows ≠ [])
  | more (o : Order) (rows : Option Body) (h : List Obs) (t : Nat) (o' : Order) (ho : OkOrder K o) (hp : o.persistent = true) (h0 : p = EVAL_GEN)
      (h1 : ow = some EVAL_GEN) (h2 : s.ph = .userRows o rows (.sent :: h) t o') (h3 : ords (left s.chan) = []) (h4 : Q = [])
  | over (o : Order) (pre : List Ev) (r : Bool) (ho : OkOrder K o) (hp : o.persistent = true) (h0 : p = EVAL_GEN) (h1 : ow = some EVAL_GEN)
      (h2 : s.ph = .idle) (h3 : ords (left s.chan) = []) (h4 : Q = [(pre, .answer o 12 r)])

def want : Ph → Want
  | .needRows _ | .userRows .. => .rows
  | _ => .ctl

/-- The worker's side. -/
structure SInv (env : Env) (K : Bool) (ow : Option Nat) (p : Nat) (s : W) (Q : List (List Ev × Out)) : Prop where
  frame : frame .ctl (taken s.tr) = some (want s.ph)
  buf : (∀ o rows h, s.ph = .user o rows h → o.persistent = true) → s.chan.buf = none
  new : ∀ o rows h, s.ph = .user o rows h → o.persistent = false → newest s.tr = some o
  faith : Faithful env s.tr
  stage : Stage env K ow p s Q

theorem recv_none {c c' : Comms.Chan Msg} (h : c.recv = (c', none)) : c.buf = none ∧ c.inbox = [] ∧ c' = c := by
  unfold Comms.Chan.recv at h
  split at h
  · simp at h
  · rename_i hb
    split at h
    · rename_i hi; simp only [Prod.mk.injEq, and_true] at h; exact ⟨hb, hi, h.symm⟩
    · simp at h

theorem ords_sig {m : Msg} {l : List Msg} (h : ∀ o, m.2 ≠ .work o) : ords (m :: l) = ords l := ords_cons h l

theorem faith_cons {e : Ev} {tr : List Ev} (h : Faithful env tr) (he : ∀ x, e ≠ .out x) : Faithful env (e :: tr) :=
  onEv_cons h (fun x hx => absurd hx (he x))

theorem faith_sim {o : Order} {st : Int} {r : Bool} {tr : List Ev} (h : Faithful env tr) (hn : newest tr = some o) (h1 : st ≠ 11 ∧ st ≠ 12) :
    Faithful env (.out (.answer o st r) :: tr) := by
  refine onEv_cons h (fun x hx hr => ?_)
  cases hx
  refine ⟨o, hn, ?_⟩
  have h11 : st.toNat ≠ 11 := by have := h1.1; omega
  simp only [resultOf, Manager.Data.isSim, Bool.or_eq_true, Bool.and_eq_true, decide_eq_true_eq] at hr
  rcases hr with hr | hr
  · exact absurd hr h11
  · exact hr.2

theorem faith_gen {o : Order} {r : Bool} {tr : List Ev} (h : Faithful env tr) : Faithful env (.out (.answer o 12 r) :: tr) := by
  refine onEv_cons h (fun x hx hr => ?_)
  cases hx
  simp [resultOf, Manager.Data.isSim, Manager.Data.isFinished, Manager.FINISHED_PERSISTENT_SIM, Manager.FINISHED_PERSISTENT_GEN] at hr

theorem faith_data {x : Nat} {tr : List Ev} (h : Faithful env tr) (hx : OkMsg (env.msg x)) : Faithful env (.out (.data x) :: tr) := by
  refine onEv_cons h (fun y hy hr => ?_)
  cases hy
  have h1 := hx.fin
  simp only [resultOf, Manager.Data.isSim, hx.gen, Bool.or_eq_true, Bool.and_eq_true, decide_eq_true_eq] at hr
  simp only [Manager.Data.isFinished, Bool.or_eq_false_iff, decide_eq_false_iff_not] at h1
  rcases hr with hr | hr
  · exact absurd hr h1.1
  · exact absurd hr.2 (by decide)

theorem Stage.extend {K : Bool} {ow : Option Nat} {p : Nat} {s s' : W} {Q : List (List Ev × Out)} (h : Stage env K ow p s Q) (h1 : s'.ph = s.ph)
    (h2 : ords (left s'.chan) = ords (left s.chan)) : Stage env K ow p s' Q := by
  cases h with
  | rest z a b c d => exact .rest z a (h1 ▸ b) (h2 ▸ c) d
  | sent o x z a b c d => exact .sent o x z a (h1 ▸ b) (h2 ▸ c) d
  | need o x z a b c d => exact .need o x z a (h1 ▸ b) (h2 ▸ c) d
  | work o rows h x y z a b c d => exact .work o rows h x y z a (h1 ▸ b) (h2 ▸ c) d
  | done o pre st r x y z a b c d e => exact .done o pre st r x y z a (h1 ▸ b) (h2 ▸ c) d e
  | ask o rows h x y z a b c d e => exact .ask o rows h x y z a (h1 ▸ b) (h2 ▸ c) d e
  | said o rows h pre i x y z a b c d e => exact .said o rows h pre i x y z a (h1 ▸ b) (h2 ▸ c) d e
  | wait o rows h x y z a b c d => exact .wait o rows h x y z a (h1 ▸ b) (h2 ▸ c) d
  | next o rows h o' x y z a b c d e => exact .next o rows h o' x y z a (h1 ▸ b) (h2 ▸ c) d e
  | more o rows h t o' x y z a b c d => exact .more o rows h t o' x y z a (h1 ▸ b) (h2 ▸ c) d
  | over o pre r x y z a b c d => exact .over o pre r x y z a (h1 ▸ b) (h2 ▸ c) d

theorem Stage.order {K : Bool} {ow : Option Nat} {p : Nat} {s : W} {Q : List (List Ev × Out)} (h : Stage env K ow p s Q) (hp : s.ph = .idle)
    {o : Order} {l : List Order} (ho : ords (left s.chan) = o :: l) : p = pv o ∧ ow = some o.tag ∧ OkOrder K o ∧ l = [] ∧ Q = [] := by
  cases h with
  | sent o' ho' h0 h1 h2 h3 h4 => rw [ho] at h3; injection h3 with e1 e2; subst e1; exact ⟨h0, h1, ho', e2, h4⟩
  | _ => simp_all

theorem Stage.ok {K : Bool} {ow : Option Nat} {p : Nat} {s : W} {Q : List (List Ev × Out)} (h : Stage env K ow p s Q)
    {o : Order} {rows : Option Body} {l : List Obs} (hp : s.ph = .user o rows l) : OkOrder K o := by
  cases h <;> simp_all

theorem Stage.plain {K : Bool} {ow : Option Nat} {p : Nat} {s : W} {Q : List (List Ev × Out)} (h : Stage env K ow p s Q)
    {o : Order} {rows : Option Body} {l : List Obs} (hp : s.ph = .user o rows l) (hper : o.persistent = false) :
    p = 0 ∧ ow = some o.tag ∧ OkOrder K o ∧ ords (left s.chan) = [] ∧ Q = [] := by
  cases h with
  | work o' rows h ho hp' h0 h1 h2 h3 h4 => rw [hp] at h2; cases h2; exact ⟨h0, h1, ho, h3, h4⟩
  | _ => simp_all

/-- The worker waits for an order or a signal. -/
def Waits (ph : Ph) : Prop := ph = .idle ∨ ∃ o rows h, ph = .user o rows (.sent :: h) ∧ o.persistent = true

/-- The worker waits for rows. -/
def Lacks (ph : Ph) : Prop := (∃ o, ph = .needRows o) ∨ ∃ o rows h t o', ph = .userRows o rows h t o'

/-- What a step of the worker does, if it sends nothing; `B`: looks before the function returns. -/
inductive Moved (B : Nat → Order → Option Body → Nat) (s s' : W) : Prop
  | stay (h1 : s' = s) (h2 : Waits s.ph ∨ Lacks s.ph) (h3 : s.chan.inbox = [])
  | skip (m : Msg) (h1 : s.ph = .idle) (h2 : s'.ph = .idle) (h3 : left s.chan = m :: left s'.chan) (h4 : ∀ o, m.2 ≠ .work o)
  | took (m : Msg) (o : Order) (h1 : s.ph = .idle) (h2 : s'.ph = .needRows o ∨ s'.ph = .user o none []) (h3 : left s.chan = m :: left s'.chan)
  | called (o : Order) (x : Body) (h1 : s.ph = .needRows o) (h2 : s'.ph = .user o (some x) [])
  | looked (o : Order) (rows : Option Body) (h : List Obs) (x : Obs) (hp : o.persistent = false) (h1 : s.ph = .user o rows h)
      (h2 : s'.ph = .user o rows (x :: h)) (h3 : s'.n = s.n) (h4 : h.length < B s.n o rows)
  | heard (o : Order) (rows : Option Body) (h : List Obs) (t : Nat) (o' : Order) (hp : o.persistent = true) (h1 : s.ph = .user o rows (.sent :: h))
      (h2 : s'.ph = .userRows o rows (.sent :: h) t o')
  | given (o : Order) (rows : Option Body) (h : List Obs) (t : Nat) (o' : Order) (b : Body) (hp : o.persistent = true)
      (h1 : s.ph = .userRows o rows h t o') (h2 : s'.ph = .user o rows (.input t o' b :: h))

/-- A step of the worker. -/
theorem tick_simple {F : UserF} {K : Bool} (hF : Simple F) (hA : K = false → Asking env F) {B : Nat → Order → Option Body → Nat}
    (hB : ∀ n o rows h, o.persistent = false → B n o rows ≤ h.length → ∃ u, F n o rows h = .ret u)
    {s : W} {ow : Option Nat} {p g : Nat} (hg : g ≤ (outs s.tr).length) (hlink : Link s)
    (hL : frame .ctl (taken s.tr ++ left s.chan) ≠ none) (hgood : ∀ m ∈ left s.chan, ∀ n, m.2 = .sig n → n = KILL ∧ K = true)
    (I : SInv env K ow p s ((outs s.tr).drop g)) :
    SInv env K ow p (tick F s) ((outs (tick F s).tr).drop g) ∧
    (ow ≠ none → (outs s.tr).drop g = [] → Moved B s (tick F s) ∨ (outs (tick F s).tr).drop g ≠ []) := by
  have hL2 : frame (want s.ph) (left s.chan) ≠ none := by
    rw [frame_append, I.frame] at hL; exact hL
  have hnf : ∀ m ∈ left s.chan, m.2 ≠ .sig FINISH := by
    intro m hm h
    have := (hgood m hm _ h).1
    exact absurd this (by decide)
  cases hp : s.ph with
  | idle =>
    rw [hp] at hL2
    unfold tick
    rw [hp]
    dsimp only
    cases hr : s.chan.recv with
    | mk c m =>
      cases m with
      | none =>
        dsimp only
        exact ⟨I, fun _ _ => .inl (.stay rfl (.inl (.inl hp)) (recv_none hr).2.1)⟩
      | some m =>
        dsimp only
        have hl := left_recv hr
        have hcb := recv_buf_none hr
        rw [hl] at hL2
        have hgm := hgood m (by rw [hl]; exact List.mem_cons_self)
        have hgf := hnf m (by rw [hl]; exact List.mem_cons_self)
        rcases frame_ctl hL2 with ⟨n, h1, h2, h3⟩ | ⟨o, h1, h2, h3⟩
        · -- a kill signal
          have hn := (hgm n h1).1
          have hnw : ∀ o, m.2 ≠ .work o := by intro o; rw [h1]; nofun
          have hk : isStop m.1 = true ∧ m.2 = Body.sig KILL := ⟨h2, by rw [h1, hn]⟩
          have hf : ¬ (isStop m.1 = true ∧ m.2 = Body.sig FINISH) := fun h => hgf h.2
          have he : W.handle ⟨.idle, c, s.n, s.tr⟩ m = ⟨.idle, c, s.n, .took m :: s.tr⟩ := by
            unfold W.handle
            simp only [W.log, if_neg hf, if_pos hk]
          rw [he]
          have hfr : frame .ctl (taken (.took m :: s.tr)) = some .ctl := by
            simp only [taken, frame_append, I.frame, hp, want, Option.bind_some, h3]
          have hords : ords (left s.chan) = ords (left c) := by rw [hl, ords_sig hnw]
          exact ⟨⟨hfr, fun _ => hcb, nofun, faith_cons I.faith nofun, I.stage.extend hp.symm hords.symm⟩, fun _ _ => .inl (.skip m hp rfl hl hnw)⟩
        · -- an order
          have hords : ords (left s.chan) = o :: ords (left c) := by
            rw [hl]; obtain ⟨t, x⟩ := m; cases h1; rfl
          have hst := I.stage.order hp hords
          obtain ⟨s0, s1, s2, s3, s4⟩ := hst
          have hf : ¬ (isStop m.1 = true ∧ Body.work o = Body.sig FINISH) := fun h => absurd h.2 nofun
          have hk : ¬ (isStop m.1 = true ∧ Body.work o = Body.sig KILL) := fun h => absurd h.2 nofun
          have hd : ¬ (o.activeRecv = true ∧ o.persistent = false) := by rw [s2.ar]; nofun
          by_cases hro : o.rows = []
          · have he : W.handle ⟨.idle, c, s.n, s.tr⟩ m = ⟨.user o none [], c, s.n, .start o none :: .took m :: s.tr⟩ := by
              unfold W.handle
              simp only [W.log, h1, if_neg hf, if_neg hk, if_neg hd, if_pos hro]
              unfold W.call
              rw [if_pos (show o.tag = EVAL_SIM ∨ o.tag = EVAL_GEN from s2.tag)]
            rw [he]
            refine ⟨⟨?_, fun _ => hcb, ?_, faith_cons (faith_cons I.faith nofun) nofun, ?_⟩, fun _ _ => .inl (.took m o hp (.inr rfl) hl)⟩
            · simp only [taken, frame_append, I.frame, hp, want, Option.bind_some, h3, if_pos hro]
            · intro o' rows' h' e _; injection e with e; rw [← e]; rfl
            · cases hper : o.persistent with
              | false => exact .work o none [] s2 hper (by rw [s0, pv, hper]; rfl) s1 rfl s3 s4
              | true => exact .ask o none [] s2 hper (by rw [s0, pv, hper]; rfl) (by rw [s1, (s2.pers hper).2]) rfl s3 s4 rfl
          · have he : W.handle ⟨.idle, c, s.n, s.tr⟩ m = ⟨.needRows o, c, s.n, .took m :: s.tr⟩ := by
              unfold W.handle
              simp only [W.log, h1, if_neg hf, if_neg hk, if_neg hd, if_neg hro]
            rw [he]
            refine ⟨⟨?_, fun _ => hcb, nofun, faith_cons I.faith nofun, .need o s2 s0 s1 rfl s3 s4⟩, fun _ _ => .inl (.took m o hp (.inl rfl) hl)⟩
            simp only [taken, frame_append, I.frame, hp, want, Option.bind_some, h3, if_neg hro]
  | skipRows o => exfalso; cases I.stage <;> simp_all
  | needRows o =>
    rw [hp] at hL2
    have hst : p = pv o ∧ ow = some o.tag ∧ OkOrder K o ∧ ords (left s.chan) = [] ∧ (outs s.tr).drop g = [] := by
      cases I.stage with
      | need o' ho h0 h1 h2 h3 h4 => rw [hp] at h2; cases h2; exact ⟨h0, h1, ho, h3, h4⟩
      | _ => simp_all
    obtain ⟨s0, s1, s2, s3, s4⟩ := hst
    unfold tick
    rw [hp]
    dsimp only
    cases hr : s.chan.recv with
    | mk c m =>
      cases m with
      | none =>
        dsimp only
        exact ⟨I, fun _ _ => .inl (.stay rfl (.inr (.inl ⟨o, hp⟩)) (recv_none hr).2.1)⟩
      | some m =>
        dsimp only
        have hl := left_recv hr
        have hcb := recv_buf_none hr
        rw [hl] at hL2
        obtain ⟨⟨x, h1⟩, h2, h3⟩ := frame_rows hL2
        have he : (W.log ⟨.needRows o, c, s.n, s.tr⟩ (.tookRows m)).call o (some m.2) = ⟨.user o (some m.2) [], c, s.n, .start o (some m.2) :: .tookRows m :: s.tr⟩ := by
          unfold W.call
          rw [if_pos (show o.tag = EVAL_SIM ∨ o.tag = EVAL_GEN from s2.tag)]; rfl
        rw [he]
        have hords : ords (left s.chan) = ords (left c) := by rw [hl, ords_sig (by intro o; rw [h1]; nofun)]
        refine ⟨⟨?_, fun _ => hcb, ?_, faith_cons (faith_cons I.faith nofun) nofun, ?_⟩, fun _ _ => .inl (.called o m.2 hp rfl)⟩
        · simp only [taken, frame_append, I.frame, hp, want, Option.bind_some, h3]
        · intro o' rows' h' e _; injection e with e; rw [← e]; rfl
        · cases hper : o.persistent with
          | false => exact .work o _ [] s2 hper (by rw [s0, pv, hper]; rfl) s1 rfl (hords ▸ s3) s4
          | true => exact .ask o _ [] s2 hper (by rw [s0, pv, hper]; rfl) (by rw [s1, (s2.pers hper).2]) rfl (hords ▸ s3) s4 rfl
  | user o rows h =>
    rw [hp] at hL2
    have hfr : frame .ctl (taken s.tr) = some .ctl := by rw [I.frame, hp]; rfl
    unfold tick
    rw [hp]
    dsimp only
    cases hper : o.persistent with
    | true =>
      have hbuf : s.chan.buf = none := I.buf (by intro o' rows' h' e; rw [hp] at e; injection e with e; rw [← e]; exact hper)
      have hok : OkOrder K o := I.stage.ok hp
      have hK : K = false := (hok.pers hper).1
      have hA := hA hK
      have hns : ∀ m ∈ left s.chan, ∀ n, m.2 ≠ .sig n := by
        intro m hm n h
        have := (hgood m hm n h).2
        rw [hK] at this; cases this
      have hrun : inPersis s.tr = true := by
        unfold Link at hlink
        rw [hp] at hlink
        simp only [inPersis, hlink.1, hper]
      -- waiting for an order
      have hwait : ∀ h0, h = .sent :: h0 → (ords (left s.chan) = [] ∨ ∃ o', ords (left s.chan) = [o'] ∧ o'.rows ≠ [] ∧ p = EVAL_GEN ∧ ow = some EVAL_GEN ∧
          (outs s.tr).drop g = []) → (ords (left s.chan) = [] → ow = none ∨ (outs s.tr).drop g ≠ []) →
          SInv env K ow p (tick F s) ((outs (tick F s).tr).drop g) ∧
          (ow ≠ none → (outs s.tr).drop g = [] → Moved B s (tick F s) ∨ (outs (tick F s).tr).drop g ≠ []) := by
        intro h0 hh hor hno
        subst hh
        unfold tick
        rw [hp]
        dsimp only
        rw [hA.waits s.n o rows h0 hper]
        dsimp only
        rw [if_neg (by simp)]
        cases hr : s.chan.recv with
        | mk c m =>
          cases m with
          | none =>
            dsimp only
            exact ⟨I, fun _ _ => .inl (.stay rfl (.inl (.inr ⟨o, rows, h0, hp, hper⟩)) (recv_none hr).2.1)⟩
          | some m =>
            dsimp only
            have hl := left_recv hr
            have hcb := recv_buf_none hr
            rw [hl] at hL2
            rcases frame_ctl hL2 with ⟨n, h1, h2, h3⟩ | ⟨o', h1, h2, h3⟩
            · exact absurd h1 (hns m (by rw [hl]; exact List.mem_cons_self) n)
            · have hords : ords (left s.chan) = o' :: ords (left c) := by
                rw [hl]; obtain ⟨t, x⟩ := m; cases h1; rfl
              obtain ⟨o2, q1, q2, q3, q4, q5⟩ : ∃ o', ords (left s.chan) = [o'] ∧ o'.rows ≠ [] ∧ p = EVAL_GEN ∧ ow = some EVAL_GEN ∧
                  (outs s.tr).drop g = [] := by
                rcases hor with hor | hor
                · rw [hords] at hor; cases hor
                · exact hor
              rw [hords] at q1
              injection q1 with e1 e2
              subst e1
              simp only [h1, W.log]
              refine ⟨⟨?_, fun _ => hcb, nofun, faith_cons I.faith nofun, .more o rows h0 m.1 o' hok hper q3 q4 rfl e2 q5⟩,
                fun _ _ => .inl (.heard o rows h0 m.1 o' hper hp rfl)⟩
              simp only [taken, frame_append, hfr, Option.bind_some, h3, if_neg q2, want]
      cases I.stage with
      | ask o' rows' h' ho hp' h0 h1 h2 h3 h4 h5 =>
        rw [hp] at h2
        injection h2 with e1 e2 e3
        subst e1 e2 e3
        rcases hA.acts s.n o rows h hper h5 with ⟨x, hx, hm⟩ | ⟨u, hx, hu⟩
        · rw [hx]
          dsimp only
          have hQ : (outs (.out (.data x) :: s.tr)).drop g = [(s.tr, .data x)] := by
            rw [outs, List.drop_append_of_le_length hg, h4]; rfl
          refine ⟨⟨?_, fun _ => hbuf, ?_, faith_data I.faith hm, .said o rows h s.tr x ho hper h0 h1 rfl h3 hQ ⟨hm, hrun⟩⟩, fun _ _ => .inr ?_⟩
          · simpa [taken, want] using hfr
          · intro o' rows' h' e hpe; injection e with e; rw [← e, hper] at hpe; cases hpe
          · show (outs (.out (.data x) :: s.tr)).drop g ≠ []
            rw [hQ]; nofun
        · rw [hx]
          dsimp only
          unfold W.finish
          simp only [W.log, hbuf]
          have hst : u.status 0 = some (12, false) := by
            cases u with
            | pairStatus y => simp only [UOut.own, Option.some.injEq] at hu; subst hu; rfl
            | triple y => simp only [UOut.own, Option.some.injEq] at hu; subst hu; rfl
            | _ => cases hu
          simp only [hst]
          rw [if_neg (by decide)]
          have hQ : (outs (.out (.answer o 12 false) :: .ret u :: s.tr)).drop g = [(.ret u :: s.tr, .answer o 12 false)] := by
            rw [outs, show outs (.ret u :: s.tr) = outs s.tr from rfl, List.drop_append_of_le_length hg, h4]; rfl
          refine ⟨⟨?_, fun _ => hbuf, nofun, faith_gen (faith_cons I.faith (by intro x h; cases h)), .over o _ false ho hper h0 h1 rfl h3 hQ⟩, fun _ _ => .inr ?_⟩
          · simpa [taken, want] using hfr
          · show (outs (.out (.answer o 12 false) :: .ret u :: s.tr)).drop g ≠ []
            rw [hQ]; nofun
      | said o' rows' h' pre x ho hp' h0 h1 h2 h3 h4 h5 =>
        rw [hp] at h2
        injection h2 with e1 e2 e3
        have := hwait h' e3 (.inl h3) (fun _ => .inr (by rw [h4]; nofun))
        simpa only [tick, hp] using this
      | wait o' rows' h' ho hp' h0 h1 h2 h3 h4 =>
        rw [hp] at h2
        injection h2 with e1 e2 e3
        have := hwait h' e3 (.inl h3) (fun _ => .inl h1)
        simpa only [tick, hp] using this
      | next o' rows' h' o2 ho hp' h0 h1 h2 h3 h4 h5 =>
        rw [hp] at h2
        injection h2 with e1 e2 e3
        have := hwait h' e3 (.inr ⟨o2, h3, h5, h0, h1, h4⟩) (fun h => by rw [h3] at h; cases h)
        simpa only [tick, hp] using this
      | _ => simp_all
    | false =>
      have hst := I.stage.plain hp hper
      obtain ⟨s0, s1, s2, s3, s4⟩ := hst
      have hnew := I.new o rows h hp hper
      have hnb : ∀ (s' : W) (rows' : Option Body) (h' : List Obs), s'.ph = .user o rows' h' →
          (∀ o rows h, s'.ph = .user o rows h → o.persistent = true) → s'.chan.buf = none := by
        intro s' rows' h' e hh
        have := hh o rows' h' e
        rw [hper] at this; cases this
      have hnw' : ∀ (s' : W) (rows' : Option Body) (h' : List Obs), s'.ph = .user o rows' h' → newest s'.tr = some o →
          ∀ o rows h, s'.ph = .user o rows h → o.persistent = false → newest s'.tr = some o := by
        intro s' rows' h' e hn o2 r2 h2 e2 _
        rw [e] at e2; injection e2 with e2; rw [← e2]; exact hn
      rcases hF.acts s.n o rows h hper with ha | ⟨u, ha, hu⟩
      · -- a look
        have hlt : h.length < B s.n o rows := by
          refine Nat.lt_of_not_le fun hle => ?_
          obtain ⟨u, hu⟩ := hB s.n o rows h hper hle
          rw [ha] at hu; cases hu
        rw [ha]
        dsimp only
        split
        · exact ⟨⟨hfr, hnb _ _ _ rfl, hnw' _ _ _ rfl hnew, I.faith, .work o rows _ s2 hper s0 s1 rfl s3 s4⟩, fun _ _ => .inl (.looked o rows h _ hper hp rfl rfl hlt)⟩
        · rename_i hmf
          cases hr : s.chan.recv with
          | mk c m =>
            cases m with
            | none =>
              exfalso
              obtain ⟨r1, r2, _⟩ := recv_none hr
              apply hmf
              unfold Comms.Chan.mailFlag
              cases s.chan.kind <;> simp [r1, r2]
            | some m =>
              dsimp only
              have hl := left_recv hr
              have hcb := recv_buf_none hr
              have hnw : ∀ o, m.2 ≠ .work o := by
                intro o' h1
                rw [hl] at s3
                obtain ⟨t, x⟩ := m
                cases h1
                cases s3
              have hords : ords (left s.chan) = ords (left c) := by rw [hl, ords_sig hnw]
              rw [hl] at hL2
              split
              · rcases frame_ctl hL2 with ⟨n, h1, h2, h3⟩ | ⟨o, h1, h2, h3⟩
                · refine ⟨⟨?_, hnb _ _ _ rfl, hnw' _ _ _ rfl hnew, faith_cons I.faith nofun, .work o rows _ s2 hper s0 s1 rfl (hords ▸ s3) s4⟩, fun _ _ => .inl (.looked o rows h _ hper hp rfl rfl hlt)⟩
                  simp only [W.log, taken, frame_append, hfr, Option.bind_some, h3, want]
                · exact absurd h1 (hnw o)
              · unfold W.pushBack
                simp only [W.log, push_ok hcb]
                have hlb : left { c with buf := some m } = m :: left c := left_push hcb m
                refine ⟨⟨?_, hnb _ _ _ rfl, hnw' _ _ _ rfl hnew, faith_cons (faith_cons I.faith nofun) nofun, .work o rows _ s2 hper s0 s1 rfl ?_ s4⟩, fun _ _ => .inl (.looked o rows h _ hper hp rfl rfl hlt)⟩
                · simp only [taken, List.dropLast_concat, hfr, want]
                · show ords (left { c with buf := some m }) = []
                  rw [hlb, ← hl]; exact s3
      · -- the end
        rw [ha]
        dsimp only
        have key : ∀ (c : Comms.Chan Msg) (bs : List Ev) (st : Int) (r : Bool), c.buf = none → ords (left c) = [] →
            frame .ctl (taken (.out (.answer o st r) :: (bs ++ .ret u :: s.tr))) = some .ctl → outs (bs ++ .ret u :: s.tr) = outs s.tr →
            newest (bs ++ .ret u :: s.tr) = some o → Faithful env (bs ++ .ret u :: s.tr) → st ≠ 11 ∧ st ≠ 12 →
            SInv env K ow p ⟨.idle, c, s.n + 1, .out (.answer o st r) :: (bs ++ .ret u :: s.tr)⟩ ((outs (.out (.answer o st r) :: (bs ++ .ret u :: s.tr))).drop g) := by
          intro c bs st r hcb ho hf hou hne hfa hst
          refine ⟨hf, fun _ => hcb, nofun, faith_sim hfa hne hst, .done o (bs ++ .ret u :: s.tr) st r s2 hper s0 s1 rfl ho ?_ hst⟩
          rw [outs, hou, List.drop_append_of_le_length hg, s4]; rfl
        have hout : ∀ (bs : List Ev) (st : Int) (r : Bool), (outs (.out (.answer o st r) :: (bs ++ .ret u :: s.tr))).drop g ≠ [] ∨ outs (bs ++ .ret u :: s.tr) ≠ outs s.tr := by
          intro bs st r
          by_cases hou : outs (bs ++ .ret u :: s.tr) = outs s.tr
          · left; rw [outs, hou, List.drop_append_of_le_length hg, s4]; nofun
          · exact .inr hou
        unfold W.finish
        simp only [W.log]
        cases hbuf : s.chan.buf with
        | none =>
          have hst : ∃ st r, u.status 0 = some (st, r) ∧ st ≠ FINISH ∧ st ≠ 11 ∧ st ≠ 12 := by
            cases u with
            | long => exact absurd rfl hu.1
            | pairStatus x => exact ⟨x, false, rfl, hu.2 x rfl⟩
            | triple x => exact ⟨x, false, rfl, hu.2 x rfl⟩
            | none => exact ⟨0, _, rfl, by decide⟩
            | array l => exact ⟨0, _, rfl, by decide⟩
            | short => exact ⟨0, _, rfl, by decide⟩
            | pairInfo => exact ⟨0, _, rfl, by decide⟩
          obtain ⟨st, r, e1, e2, e3⟩ := hst
          simp only [e1, if_neg e2]
          exact ⟨key s.chan [] st r hbuf s3 (by simpa [taken] using hfr) rfl hnew (faith_cons I.faith nofun) e3, fun _ _ => .inr ((hout [] st r).resolve_right (fun h => h rfl))⟩
        | some m =>
          have hm : m ∈ left s.chan := by simp [left, hbuf]
          have hnf1 : ¬ (isStop m.1 = true ∧ m.2 = Body.sig FINISH) := fun h => hnf m hm h.2
          have hst : ∃ st r, u.status (if isStop m.1 = true ∧ m.2 = Body.sig FINISH then FINISH else 0) = some (st, r) ∧ st ≠ FINISH ∧ st ≠ 11 ∧ st ≠ 12 := by
            rw [if_neg hnf1]
            cases u with
            | long => exact absurd rfl hu.1
            | pairStatus x => exact ⟨x, false, rfl, hu.2 x rfl⟩
            | triple x => exact ⟨x, false, rfl, hu.2 x rfl⟩
            | none => exact ⟨0, _, rfl, by decide⟩
            | array l => exact ⟨0, _, rfl, by decide⟩
            | short => exact ⟨0, _, rfl, by decide⟩
            | pairInfo => exact ⟨0, _, rfl, by decide⟩
          obtain ⟨st, r, e1, e2, e3⟩ := hst
          have hrec : s.chan.recv = ({ s.chan with buf := none }, some m) := by unfold Comms.Chan.recv; rw [hbuf]
          have hl := left_recv hrec
          have hnw : ∀ o, m.2 ≠ .work o := by
            intro o' h1
            rw [hl] at s3
            obtain ⟨t, x⟩ := m
            cases h1
            cases s3
          have hords : ords (left s.chan) = ords (left { s.chan with buf := none }) := by rw [hl, ords_sig hnw]
          simp only [e1, if_neg e2, hrec]
          rw [hl] at hL2
          have h3 : frame .ctl [m] = some .ctl := by
            rcases frame_ctl hL2 with ⟨n, h1, h2, h3⟩ | ⟨o, h1, h2, h3⟩
            · exact h3
            · exact absurd h1 (hnw o)
          refine ⟨key { s.chan with buf := none } [.buffered m] st r rfl (hords ▸ s3) ?_ rfl hnew (faith_cons (faith_cons I.faith nofun) nofun) e3,
            fun _ _ => .inr ((hout [.buffered m] st r).resolve_right (fun h => h rfl))⟩
          simp only [List.cons_append, List.nil_append, taken, frame_append, hfr, Option.bind_some, h3]
  | userRows o rows h t o' =>
    rw [hp] at hL2
    have hst : ∃ h0, h = .sent :: h0 ∧ o.persistent = true ∧ p = EVAL_GEN ∧ ow = some EVAL_GEN ∧ OkOrder K o ∧ ords (left s.chan) = [] ∧ (outs s.tr).drop g = [] := by
      cases I.stage with
      | more o' rows' h' t' o2 ho hp' h0 h1 h2 h3 h4 => rw [hp] at h2; cases h2; exact ⟨h', rfl, hp', h0, h1, ho, h3, h4⟩
      | _ => simp_all
    obtain ⟨h0, rfl, hper, s0, s1, s2, s3, s4⟩ := hst
    unfold tick
    rw [hp]
    dsimp only
    cases hr : s.chan.recv with
    | mk c m =>
      cases m with
      | none =>
        dsimp only
        exact ⟨I, fun _ _ => .inl (.stay rfl (.inr (.inr ⟨o, rows, _, t, o', hp⟩)) (recv_none hr).2.1)⟩
      | some m =>
        dsimp only
        have hl := left_recv hr
        have hcb := recv_buf_none hr
        rw [hl] at hL2
        obtain ⟨⟨x, h1⟩, h2, h3⟩ := frame_rows hL2
        rw [if_neg (by rw [h2]; nofun)]
        have hords : ords (left s.chan) = ords (left c) := by rw [hl, ords_sig (by intro o; rw [h1]; nofun)]
        refine ⟨⟨?_, fun _ => hcb, ?_, faith_cons I.faith nofun, .ask o rows _ s2 hper s0 s1 rfl (hords ▸ s3) s4 rfl⟩,
          fun _ _ => .inl (.given o rows _ t o' m.2 hper hp rfl)⟩
        · simp only [W.log, taken, frame_append, I.frame, hp, want, Option.bind_some, h3]
        · intro o' rows' h' e hpe; injection e with e; rw [← e, hper] at hpe; cases hpe
  | ended => exfalso; cases I.stage <;> simp_all
  | failed => exfalso; cases I.stage <;> simp_all

end Verif.System
