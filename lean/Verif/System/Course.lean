import Verif.System.Simple
import Verif.System.Stops
import Verif.System.Whole
/-
The stages of orders along everything that manager and workers do (helper for Live.lean).
-/
namespace Verif.System
open Verif Verif.Worker
open Verif.Manager (view hasFinal Always Answers Replies)

variable {env : Env} {tr : List Manager.Ev} {ws : Nat → W}

/-- Along such a record the workers get orders, rows and, if there are any, kill signals only. -/
theorem neat_sent {K : Bool} (w : Nat) {tr : List Manager.Ev} (h : Always (Neat K) tr) :
    ∀ m ∈ sentTo w tr, ∀ n, m.2 = .sig n → n = KILL ∧ K = true := by
  induction tr with
  | nil => intro m hm; simp [sentTo] at hm
  | cons e tr ih =>
    obtain ⟨h1, h2⟩ := Manager.always_cons.mp h
    intro m hm
    rw [sentTo, List.mem_append] at hm
    rcases hm with hm | hm
    · exact ih h2 m hm
    · rw [Option.mem_toList] at hm
      cases e <;> simp only [msgTo] at hm <;> (try (simp at hm; done)) <;> (try exact h1.elim) <;> split at hm <;>
        simp only [Option.mem_def, Option.some.injEq, reduceCtorEq] at hm <;> subst hm
      · nofun
      · nofun
      · exact fun n h => by injection h with h; exact ⟨h.symm, h1⟩

/-- The stages of all orders, for a whole record. -/
structure Steady (env : Env) (K : Bool) (tr : List Manager.Ev) (ws : Nat → W) : Prop where
  view : ∀ w, Manager.view w tr = { busy := (Manager.owes w tr).isSome, persis := (Manager.view w tr).persis }
  inv : ∀ w, SInv env K (Manager.owes w tr) (Manager.view w tr).persis (ws w) (onTheWay w tr (ws w))
  replies : Replies tr
  answers : K = true → Answers tr
  noErr : ∀ w, .recv w .err ∉ tr

theorem SInv.extend {K : Bool} {ow : Option Nat} {p : Nat} {s s' : W} {Q : List (List Ev × Out)} (h : SInv env K ow p s Q) (h1 : s'.ph = s.ph) (h3 : s'.tr = s.tr)
    (h4 : s'.chan.buf = s.chan.buf) (h2 : ords (left s'.chan) = ords (left s.chan)) : SInv env K ow p s' Q :=
  ⟨by rw [h1, h3]; exact h.frame, by rw [h1, h4]; exact h.buf, by rw [h1, h3]; exact h.new, by rw [h3]; exact h.faith, h.stage.extend h1 h2⟩

theorem deliver_buf (w : Nat) (e : Manager.Ev) (s : W) : (deliver w e s).chan.buf = s.chan.buf := by
  unfold deliver
  cases msgTo w e with
  | none => rfl
  | some m => rfl

theorem carry_buf (c : Comms.Chan Msg) : c.carry.buf = c.buf := by
  unfold Comms.Chan.carry
  split <;> rfl

/-- Events that leave the stages as they are. -/
theorem SInv.other {K : Bool} {w : Nat} {e : Manager.Ev} {s : W} (h : SInv env K (Manager.owes w tr) (Manager.view w tr).persis s (onTheWay w tr s))
    (hg : isGot w e = false) (hv : Manager.view w (e :: tr) = Manager.view w tr) (ho : Manager.owes w (e :: tr) = Manager.owes w tr) (hm : ∀ m ∈ (msgTo w e).toList, ∀ o, m.2 ≠ .work o) :
    SInv env K (Manager.owes w (e :: tr)) (Manager.view w (e :: tr)).persis (deliver w e s) (onTheWay w (e :: tr) (deliver w e s)) := by
  obtain ⟨e1, e2, e3⟩ := deliver_tr w e s
  have hq : onTheWay w (e :: tr) (deliver w e s) = onTheWay w tr s := by
    have : got w (e :: tr) = got w tr := by
      rw [got, List.countP_cons, got]
      simp only [hg]
      simp
    simp only [onTheWay, e1, this]
  rw [ho, hv, hq]
  refine h.extend e2 e1 (deliver_buf w e s) ?_
  rw [e3, ords_append]
  have : ords (msgTo w e).toList = [] := by
    cases hx : msgTo w e with
    | none => rfl
    | some m =>
      rw [hx] at hm
      exact ords_cons (hm m (by simp)) []
  rw [this, List.append_nil]

/-- An event of the manager, seen from one worker. -/
theorem SInv.man {K : Bool} {w : Nat} {e : Manager.Ev} {s : W}
    (hp : ∀ m, e = .recv w m → fromWorker m = true → ∃ pre x rest, onTheWay w tr s = (pre, x) :: rest ∧ Says env pre x m)
    (hv : Manager.view w tr = { busy := (Manager.owes w tr).isSome, persis := (Manager.view w tr).persis })
    (J : SInv env K (Manager.owes w tr) (Manager.view w tr).persis s (onTheWay w tr s)) (hn : Neat K tr e) :
    Manager.view w (e :: tr) = { busy := (Manager.owes w (e :: tr)).isSome, persis := (Manager.view w (e :: tr)).persis } ∧
    SInv env K (Manager.owes w (e :: tr)) (Manager.view w (e :: tr)).persis (deliver w e s) (onTheWay w (e :: tr) (deliver w e s)) ∧
    e ≠ .recv w .err ∧
    (∀ d, e = .recv w (.data d) → Manager.owes w tr = some d.calcType ∧ d.keepState = false ∧ (K = true → d.isFinished = false ∧ d.persistent = false)) ∧
    ((∀ to key wk, e ≠ .order to key wk) → (Manager.view w tr).persis = 0 → (Manager.view w (e :: tr)).persis = 0) := by
  have hview0 : Manager.view w (e :: tr) = Manager.view w tr → Manager.owes w (e :: tr) = Manager.owes w tr →
      Manager.view w (e :: tr) = { busy := (Manager.owes w (e :: tr)).isSome, persis := (Manager.view w (e :: tr)).persis } :=
    fun h1 h2 => by rw [h1, h2]; exact hv
  have hother : isGot w e = false → Manager.view w (e :: tr) = Manager.view w tr → Manager.owes w (e :: tr) = Manager.owes w tr →
      (∀ m ∈ (msgTo w e).toList, ∀ o, m.2 ≠ .work o) → e ≠ .recv w .err → (∀ d, e ≠ .recv w (.data d)) →
      Manager.view w (e :: tr) = { busy := (Manager.owes w (e :: tr)).isSome, persis := (Manager.view w (e :: tr)).persis } ∧
      SInv env K (Manager.owes w (e :: tr)) (Manager.view w (e :: tr)).persis (deliver w e s) (onTheWay w (e :: tr) (deliver w e s)) ∧
      e ≠ .recv w .err ∧
      (∀ d, e = .recv w (.data d) → Manager.owes w tr = some d.calcType ∧ d.keepState = false ∧ (K = true → d.isFinished = false ∧ d.persistent = false)) ∧
      ((∀ to key wk, e ≠ .order to key wk) → (Manager.view w tr).persis = 0 → (Manager.view w (e :: tr)).persis = 0) :=
    fun h1 h2 h3 h4 h5 h6 => ⟨hview0 h2 h3, J.other h1 h2 h3 h4, h5, fun d hd => absurd hd (h6 d), fun _ h => by rw [h2]; exact h⟩
  have hrc : (Manager.view w tr).recv = false := by rw [hv]
  have hstp : (Manager.view w tr).stopped = false := by rw [hv]
  cases e with
  | order to key wk =>
    obtain ⟨n1, n2, n3, n4, n5⟩ := hn
    by_cases hto : to = w
    · subst hto
      refine ⟨?_, ?_, nofun, nofun, fun h => absurd rfl (h _ _ _)⟩
      · simp only [Manager.view, Manager.View.step, Manager.owes, if_true, n1, Bool.false_eq_true, if_false, n3, Bool.and_false, Bool.or_false,
          Option.isSome_some, hrc, hstp]
      · have hnone : Manager.owes to tr = none := by
          rw [hv] at n2
          simpa using n2
        have hvp : (Manager.view to (.order to key wk :: tr)).persis = if wk.persistent then wk.tag else (Manager.view to tr).persis := by
          simp only [Manager.view, Manager.View.step, if_true, n1, Bool.false_eq_true, if_false]
        have hvo : Manager.owes to (.order to key wk :: tr) = some wk.tag := by simp only [Manager.owes, if_true]
        obtain ⟨e1, e2, e3⟩ := deliver_tr to (.order to key wk) s
        have hq : onTheWay to (.order to key wk :: tr) (deliver to (.order to key wk) s) = onTheWay to tr s := by
          have : got to (.order to key wk :: tr) = got to tr := by simp [got, isGot]
          simp only [onTheWay, e1, this]
        rw [hq, hvp, hvo]
        have hOk : OkOrder K (orderOf wk) := by
          refine ⟨n4, n3, fun h => ?_⟩
          rcases n5 with ⟨h1, _⟩ | ⟨h1, h2, h3, _⟩
          · rw [show (orderOf wk).persistent = wk.persistent from rfl, h1] at h; cases h
          · exact ⟨h2, h3⟩
        refine ⟨by simp only [e1, e2]; exact J.frame, by simp only [e2, deliver_buf]; exact J.buf, by simp only [e1, e2]; exact J.new, by rw [e1]; exact J.faith, ?_⟩
        rw [hnone] at J
        have hords : ∀ {l}, ords (left s.chan) = l → ords (left (deliver to (.order to key wk) s).chan) = l ++ [orderOf wk] := by
          rintro l rfl
          rw [e3, ords_append]; simp [msgTo, ords]
        cases J.stage with
        | rest z a b c d =>
          refine .sent (orderOf wk) hOk ?_ rfl (by rw [e2]; exact b) (hords c) d
          rcases n5 with ⟨h1, _⟩ | ⟨h1, h2, h3, _⟩
          · simp only [pv, orderOf, h1, Bool.false_eq_true, if_false]; exact z
          · simp only [pv, orderOf, h1, if_true]; exact h3
        | wait o rows h x y z a b c d =>
          rcases n5 with ⟨h1, h2⟩ | ⟨h1, h2, h3, h4⟩
          · rw [h2 (x.pers y).1] at z; cases z
          · refine .next o rows h (orderOf wk) x y ?_ ?_ (by rw [e2]; exact b) (hords c) d (h4 ?_)
            · simp only [h1, if_true]; exact h3
            · rw [h3]; rfl
            · rw [z]; decide
        | sent o x z a b c d => cases a
        | need o x z a b c d => cases a
        | work o r h x y z a b c d => cases a
        | done o pre st r x y z a b c d e => cases a
        | ask o r h x y z a b c d => cases a
        | said o r h pre i x y z a b c d => cases a
        | next o r h o' x y z a b c d => cases a
        | more o r h t o' x y z a b c d => cases a
        | over o pre r x y z a b c d => cases a
    · refine hother rfl ?_ ?_ (by simp [msgTo, hto]) nofun nofun <;> simp only [Manager.view, Manager.View.step, Manager.owes, if_neg hto]
  | rows to rs vals =>
    refine hother rfl rfl rfl ?_ nofun nofun
    simp only [msgTo]
    split
    · simp
    · simp
  | stop to => exact hn.elim
  | kill to i =>
    refine hother rfl rfl rfl ?_ nofun nofun
    simp only [msgTo]
    split
    · simp
    · simp
  | persisStop to => exact hn.elim
  | recv w' m =>
    by_cases hw : w' = w
    · subst hw
      cases m with
      | finished =>
        refine hother (by simp [isGot, fromWorker]) ?_ rfl (by simp [msgTo]) (by intro h; cases h) (by intro d h; cases h)
        simp only [Manager.view, Manager.View.step]; split <;> rfl
      | log =>
        refine hother (by simp [isGot, fromWorker]) ?_ rfl (by simp [msgTo]) (by intro h; cases h) (by intro d h; cases h)
        simp only [Manager.view, Manager.View.step]; split <;> rfl
      | err =>
        exfalso
        obtain ⟨pre, x, rest, h1, h2⟩ := hp _ rfl rfl
        cases J.stage with
        | done o pre st r x y z a b c d e => rw [d] at h1; cases h1; exact h2
        | said o rows h pre i x y z a b c d e => rw [d] at h1; cases h1; exact h2
        | over o pre r x y z a b c d => rw [d] at h1; cases h1; exact h2
        | rest z a b c d => rw [d] at h1; cases h1
        | sent o x z a b c d => rw [d] at h1; cases h1
        | need o x z a b c d => rw [d] at h1; cases h1
        | work o r h x y z a b c d => rw [d] at h1; cases h1
        | ask o r h x y z a b c d => rw [d] at h1; cases h1
        | wait o r h x y z a b c d => rw [d] at h1; cases h1
        | next o r h o' x y z a b c d => rw [d] at h1; cases h1
        | more o r h t o' x y z a b c d => rw [d] at h1; cases h1
      | data d =>
        obtain ⟨pre, x, rest, h1, h2⟩ := hp _ rfl rfl
        -- the worker and what is noted about it afterwards
        have hd : Manager.owes w' tr = some d.calcType ∧ d.keepState = false ∧ (K = true → d.isFinished = false ∧ d.persistent = false) ∧ rest = [] ∧
            Stage env K none (Manager.view w' (.recv w' (.data d) :: tr)).persis s [] ∧
            ((Manager.view w' tr).persis = 0 → (Manager.view w' (.recv w' (.data d) :: tr)).persis = 0) := by
          cases J.stage with
          | done o pre st r x y z a b c hq e =>
            rw [hq] at h1; cases h1
            obtain ⟨out, rfl⟩ := h2
            have hfin : Manager.Data.isFinished { calcType := o.tag, calcStatus := st.toNat, rows := hRows pre, persistent := o.persistent, out := out } = false := by
              simp only [Manager.Data.isFinished, Bool.or_eq_false_iff, decide_eq_false_iff_not]
              have h11 : st.toNat ≠ 11 := by have := e.1; omega
              have h12 : st.toNat ≠ 12 := by have := e.2; omega
              exact ⟨h11, h12⟩
            have hz : (Manager.view w' (.recv w' (.data { calcType := o.tag, calcStatus := st.toNat, rows := hRows pre, persistent := o.persistent, out := out }) :: tr)).persis = 0 := by
              simp only [Manager.view, Manager.View.step, if_true, hfin, Bool.false_eq_true, if_false]
              split
              · rename_i h; rw [y] at h; cases h
              · exact z
            exact ⟨a, rfl, fun _ => ⟨hfin, y⟩, rfl, .rest hz rfl b c rfl, fun _ => hz⟩
          | said o rows h pre i x y z a b c hq e =>
            rw [hq] at h1; cases h1
            obtain ⟨rfl, h3⟩ := h2
            have hfin : Manager.Data.isFinished { env.msg i with rows := hRows pre, persistent := inPersis pre } = false := e.1.fin
            refine ⟨a.trans (congrArg some e.1.gen.symm), e.1.keep, fun hK => ?_, rfl, .wait o rows h x y ?_ rfl b c rfl, fun h0 => ?_⟩
            · rw [(x.pers y).1] at hK; cases hK
            · simp only [Manager.view, Manager.View.step, if_true, hfin, Bool.false_eq_true, if_false]
              split
              · exact e.1.gen
              · exact z
            · rw [h0] at z; cases z
          | over o pre r x y z a b c hq =>
            rw [hq] at h1; cases h1
            obtain ⟨out, rfl⟩ := h2
            refine ⟨a.trans (congrArg some (x.pers y).2.symm), rfl, fun hK => ?_, rfl, .rest ?_ rfl b c rfl, fun h0 => ?_⟩
            · rw [(x.pers y).1] at hK; cases hK
            · have hfin : Manager.Data.isFinished { calcType := o.tag, calcStatus := (12 : Int).toNat, rows := hRows pre, persistent := o.persistent, out := out } = true := rfl
              simp only [Manager.view, Manager.View.step, if_true, hfin]
            · rw [h0] at z; cases z
          | rest z a b c d => rw [d] at h1; cases h1
          | sent o x z a b c d => rw [d] at h1; cases h1
          | need o x z a b c d => rw [d] at h1; cases h1
          | work o r h x y z a b c d => rw [d] at h1; cases h1
          | ask o r h x y z a b c d => rw [d] at h1; cases h1
          | wait o r h x y z a b c d => rw [d] at h1; cases h1
          | next o r h o' x y z a b c d => rw [d] at h1; cases h1
          | more o r h t o' x y z a b c d => rw [d] at h1; cases h1
        obtain ⟨d1, d3, d4, d5, d6, d7⟩ := hd
        refine ⟨?_, ?_, (by intro h; cases h), fun d' hd' => ?_, fun _ => d7⟩
        · simp only [Manager.view, Manager.View.step, if_true, Manager.owes, d3, hrc, hstp]
          split <;> simp
        · have hr : onTheWay w' (.recv w' (.data d) :: tr) (deliver w' (.recv w' (.data d)) s) = [] := by
            have hg : got w' (.recv w' (.data d) :: tr) = got w' tr + 1 := by simp [got, isGot, fromWorker]
            have e1 := (deliver_tr w' (.recv w' (.data d)) s).1
            simp only [onTheWay, e1, hg]
            simp only [onTheWay] at h1
            rw [← List.drop_drop, h1, d5]; rfl
          rw [hr, show Manager.owes w' (.recv w' (.data d) :: tr) = none by simp [Manager.owes]]
          exact ⟨J.frame, J.buf, J.new, J.faith, d6⟩
        · cases hd'; exact ⟨d1, d3, d4⟩
    · refine hother (by simp [isGot, hw]) (by simp only [Manager.view, Manager.View.step, if_neg hw]) ?_ (by simp [msgTo])
        (fun h => by injection h with h; exact hw h) (fun d h => by injection h with h; exact hw h)
      cases m <;> simp only [Manager.owes, if_neg hw]
  | _ => exact hother rfl rfl rfl (by simp [msgTo]) nofun nofun

theorem Steady.man {K : Bool} {e : Manager.Ev} (hp : Possible env tr ws e) (I : Steady env K tr ws) (hn : Neat K tr e) :
    Steady env K (e :: tr) (fun w => deliver w e (ws w)) := by
  have key := fun w => SInv.man (e := e) (fun m he hm => by subst he; exact hp hm) (I.view w) (I.inv w) hn
  refine ⟨fun w => (key w).1, fun w => (key w).2.1, ?_, ?_, ?_⟩
  · intro post w d pre he
    cases post with
    | nil =>
      simp only [List.nil_append, List.cons.injEq] at he
      obtain ⟨rfl, rfl⟩ := he
      have := (key w).2.2.2.1 d rfl
      exact ⟨this.1, this.2.1⟩
    | cons a post => simp only [List.cons_append, List.cons.injEq] at he; exact I.replies post w d pre he.2
  · intro hK post w d pre he
    cases post with
    | nil =>
      simp only [List.nil_append, List.cons.injEq] at he
      obtain ⟨rfl, rfl⟩ := he
      have := (key w).2.2.2.1 d rfl
      exact ⟨this.1, (this.2.2 hK).1, this.2.1, (this.2.2 hK).2⟩
    | cons a post => simp only [List.cons_append, List.cons.injEq] at he; exact I.answers hK post w d pre he.2
  · intro w hm
    rcases List.mem_cons.mp hm with h | h
    · exact (key w).2.2.1 h.symm
    · exact I.noErr w h

/-- A number of looks after which a function that is not persistent returns. -/
noncomputable def bound {F : UserF} (hF : Simple F) (n : Nat) (o : Order) (rows : Option Body) : Nat :=
  if h : o.persistent = false then Classical.choose (hF.ends n o rows h) else 0

theorem bound_spec {F : UserF} (hF : Simple F) : ∀ n o rows h, o.persistent = false → bound hF n o rows ≤ h.length → ∃ u, F n o rows h = .ret u := by
  intro n o rows h hp hl
  unfold bound at hl
  rw [dif_pos hp] at hl
  exact Classical.choose_spec (hF.ends n o rows hp) h hl

/-- The stages hold in everything that manager and workers do. -/
theorem Joint.steady {K : Bool} (h : Joint env tr ws) (hF : ∀ w, Simple (env.F w)) (hA : K = false → ∀ w, Asking env (env.F w))
    (hn : Always (Neat K) tr) (hf : ∀ w, Framed (sentTo w tr)) : Steady env K tr ws := by
  induction h with
  | init => exact ⟨fun w => rfl, fun w => ⟨rfl, fun _ => rfl, nofun, onEv_nil, .rest rfl rfl rfl rfl rfl⟩, fun post w d pre he => by simp at he,
      fun _ post w d pre he => by simp at he, by simp⟩
  | @man tr ws e h hp ih =>
    obtain ⟨h1, h2⟩ := Manager.always_cons.mp hn
    exact (ih h2 (fun w => framed_prefix (hf w))).man hp h1
  | @carry tr ws v h ih =>
    have I := ih hn hf
    refine ⟨I.view, fun w => ?_, I.replies, I.answers, I.noErr⟩
    dsimp only
    split
    · exact (I.inv w).extend rfl rfl (carry_buf _) (by simp only [left_carry])
    · exact I.inv w
  | @tick tr ws v h ih =>
    have I := ih hn hf
    refine ⟨I.view, fun w => ?_, I.replies, I.answers, I.noErr⟩
    split
    · refine (tick_simple (hF w) (fun hK => hA hK w) (B := bound (hF w)) (bound_spec (hF w)) (h.got_le w) (h.fine w).2.2 ?_ ?_ (I.inv w)).1
      · rw [h.taken w]; exact hf w
      · intro m hm
        exact neat_sent w hn m (by rw [← h.taken w]; exact List.mem_append_right _ hm)
    · exact I.inv w

end Verif.System
