import Verif.Manager.Orders
/-
The table keeps agreeing with the messages, through every function of the manager that does not raise.
-/
namespace Verif.Manager
open Verif.History Verif.Res Verif.Sched Verif.Alloc

variable {sp : Specs}

theorem modify_congr_at {α} (l : List α) (k : Nat) (f g : α → α) (h : ∀ x, l[k]? = some x → f x = g x) :
    l.modify k f = l.modify k g := by
  induction l generalizing k with
  | nil => simp
  | cons a l ih =>
    cases k with
    | zero => simp [List.modify_cons, h a (by simp)]
    | succ k => simp only [List.modify_succ_cons]; rw [ih k (fun x hx => h x (by simpa using hx))]

/-! ### Hand-out -/

theorem giveEntry_id (wk : Work) (x : Wrk) : (giveEntry wk x).id = x.id := by simp only [giveEntry]; split <;> rfl

theorem VI.gave {a b : St} (h : VI sp a) (hfin : hasFinal a.tr = false) {w k : Nat} {t : Int} {wk wk' : Work} {l0 l : List Ev}
    (hG : Gave sp a b w k t wk wk' l0 l) : VI sp b := by
  obtain ⟨g, hg, hW⟩ := hG.W
  have hl0 : ∀ e ∈ l0, neutral e = true ∧ hasExc [e] = false := by
    rcases hG.before with rfl | ⟨team, rfl, _⟩
    · simp
    · intro e he; simp at he; subst he; exact ⟨rfl, rfl⟩
  have hl : ∀ e ∈ l, neutral e = true ∧ hasExc [e] = false := by
    rw [hG.after]
    split
    · simp
    · intro e he; simp at he; subst he; exact ⟨rfl, rfl⟩
  have hq : ∃ q, b.tr = q ++ (l ++ .order (idAt sp k) w wk' :: (l0 ++ a.tr)) ∧ ∀ e ∈ q, neutral e = true ∧ hasExc [e] = false := by
    refine ⟨_, hG.tr, ?_⟩
    cases orderOp sp wk w t with
    | none => simp
    | some o => intro e he; simp at he; subst he; exact ⟨rfl, rfl⟩
  obtain ⟨q, htr, ho⟩ := hq
  have hf0 : hasFinal (l0 ++ a.tr) = false := by
    rw [hasFinal_append, hfin, Bool.or_false]
    rcases hG.before with rfl | ⟨team, rfl, _⟩ <;> rfl
  have hview : ∀ j, view (idAt sp j) b.tr = (view (idAt sp j) a.tr).step (idAt sp j) false (hasExc (l0 ++ a.tr)) (.order (idAt sp k) w wk') := by
    intro j
    rw [htr, view_neutral _ _ _ (fun e he => (ho e he).1), view_neutral _ _ _ (fun e he => (hl e he).1)]
    simp only [view, hf0]
    rw [view_neutral _ _ _ (fun e he => (hl0 e he).1)]
  refine h.upd hW (l := q ++ (l ++ Ev.order (idAt sp k) w wk' :: l0)) ?_ ?_ ?_ ?_ ?_ ?_
  · rw [htr]; simp
  · rw [hG.exc, h.exc, htr]
    rw [hasExc_append, hasExc_false (fun e he => (ho e he).2), hasExc_append, hasExc_false (fun e he => (hl e he).2)]
    have : hasExc (Ev.order (idAt sp k) w wk' :: (l0 ++ a.tr)) = hasExc (l0 ++ a.tr) := rfl
    rw [this, hasExc_append, hasExc_false (fun e he => (hl0 e he).2)]
    simp
  · rw [hG.pending]; exact h.nd
  · intro j hj
    refine ⟨?_, by rw [hG.pending]⟩
    rw [hview j]
    simp only [View.step]
    rw [if_neg (fun h => hj (idAt_inj h).symm)]
  · intro x hx
    have hA := h.agree k x hx
    rw [hview k, hG.pending]
    have h1 : wk'.persistent = wk.persistent := by rw [hG.order]
    have h2 : wk'.activeRecv = wk.activeRecv := by rw [hG.order]
    have h3 : wk'.tag = wk.tag := by rw [hG.order]
    have hx1 : (g x).activeRecv = x.activeRecv ∧ (g x).persis = x.persis := by
      rcases hg with rfl | ⟨t, rfl⟩ <;> exact ⟨rfl, rfl⟩
    have htag : wk.tag ≠ 0 := by rcases hG.tag with h | h | h <;> rw [h] <;> decide
    simp only [View.step, if_true, Bool.false_eq_true, if_false, h1, h2, h3]
    constructor
    · simp only [giveEntry]; split <;> simp [htag]
    · simp only [giveEntry, hA.recv]
      cases hp : wk.persistent <;> simp [hx1.1]
    · simp only [giveEntry, hA.persis]
      cases hp : wk.persistent <;> simp [hx1.2]
    · exact hA.stopped
  · intro x
    rw [giveEntry_id]
    rcases hg with rfl | ⟨t, rfl⟩ <;> rfl

/-! ### Messages -/

/-- Effect of a result on the entry of the worker; `p`: it is in `persis_pending`, `exc`: `WorkerExc`. -/
def msgEntry (d : Data) (p exc : Bool) (x : Wrk) : Wrk :=
  let idle := (!p && !x.activeRecv && !d.keepState) || exc
  if d.isFinished then
    { x with active := if idle || x.activeRecv || p then 0 else x.active, persis := 0, activeRecv := false }
  else
    { x with active := if idle then 0 else x.active, persis := if d.persistent then d.calcType else x.persis }

theorem sameTab_markIdle (s : St) {w k : Nat} (d : Data) (hp : wPos sp.gom s.W.length w = some k) :
    markIdle sp s w d = { s with W := s.W.modify k (fun x =>
      if (!decide (w ∈ s.pending) && !x.activeRecv && !d.keepState) || s.exc then { x with active := 0 } else x) } := by
  simp only [markIdle, getW, hp, Option.bind_some]
  have hk := wPos_lt hp
  have hx : s.W[k]? = some s.W[k] := List.getElem?_eq_getElem hk
  simp only [hx, Option.map_some, Option.getD_some]
  split
  · rename_i hc
    rw [modW_at hp]
    congr 1
    refine modify_congr_at _ _ _ _ (fun x hx' => ?_)
    obtain rfl : s.W[k] = x := by rw [hx] at hx'; simpa using hx'
    simp [hc]
  · rename_i hc
    have : s.W.modify k (fun x =>
      if (!decide (w ∈ s.pending) && !x.activeRecv && !d.keepState) || s.exc then { x with active := 0 } else x) = s.W := by
      rw [modify_congr_at _ _ _ id (fun x hx' => ?_)]
      · exact List.modify_id k s.W
      · obtain rfl : s.W[k] = x := by rw [hx] at hx'; simpa using hx'
        simp [hc]
    rw [this]

theorem isFinished_iff (d : Data) :
    d.isFinished = true ↔ d.calcStatus = FINISHED_PERSISTENT_SIM ∨ d.calcStatus = FINISHED_PERSISTENT_GEN := by
  simp [Data.isFinished]

/-- Events recorded after the message itself when nothing is raised. -/
def QQuiet (e : Ev) : Prop := (∃ o, e = .op o) ∨ ∃ w, e = .free w

theorem finishPersis_eq (s : St) {w k : Nat} (hp : wPos sp.gom s.W.length w = some k) :
    (finishPersis sp s w).W = s.W.modify k (fun x =>
      { x with active := if x.activeRecv || decide (w ∈ s.pending) then 0 else x.active, persis := 0, activeRecv := false }) ∧
    (finishPersis sp s w).pending = (if w ∈ s.pending then s.pending.erase w else s.pending) ∧
    (finishPersis sp s w).exc = s.exc ∧ (finishPersis sp s w).hist = s.hist ∧
    ∃ l, (finishPersis sp s w).tr = l ++ s.tr ∧ ∀ e ∈ l, QQuiet e := by
  simp only [finishPersis]
  rw [modW_at hp]
  have hf : ∀ s1 : St, (freeup s1 w).W = s1.W ∧ (freeup s1 w).pending = s1.pending ∧ (freeup s1 w).exc = s1.exc ∧
      (freeup s1 w).hist = s1.hist ∧ ∃ l, (freeup s1 w).tr = l ++ s1.tr ∧ ∀ e ∈ l, QQuiet e := by
    intro s1
    simp only [freeup]
    split
    · exact ⟨rfl, rfl, rfl, rfl, [], rfl, by simp⟩
    · exact ⟨rfl, rfl, rfl, rfl, [_], rfl, by simp [QQuiet]⟩
  split
  · rename_i hm
    obtain ⟨h1, h2, h3, h4, h5⟩ := hf (modW sp { ({ s with W := s.W.modify k fun x => if x.activeRecv = true then { x with persis := 0, active := 0, activeRecv := false } else { x with persis := 0 } } : St) with pending := s.pending.erase w } w fun x => { x with active := 0 })
    simp only at hm
    rw [modW_at (k := k) (by simpa using hp)] at h1 h2 h3 h4 h5
    rw [modW_at (k := k) (by simpa using hp)]
    refine ⟨?_, ?_, h3, h4, h5⟩
    · rw [h1]
      simp only [modify_modify]
      refine modify_congr_at _ _ _ _ (fun x _ => ?_)
      cases hr : x.activeRecv <;> simp [hm, hr]
    · rw [h2]; try simp [hm]
  · rename_i hm
    simp only at hm
    obtain ⟨h1, h2, h3, h4, h5⟩ := hf { s with W := s.W.modify k fun x => if x.activeRecv = true then { x with persis := 0, active := 0, activeRecv := false } else { x with persis := 0 } }
    refine ⟨?_, ?_, h3, h4, h5⟩
    · rw [h1]
      refine modify_congr_at _ _ _ _ (fun x _ => ?_)
      cases hr : x.activeRecv <;> simp [hm, hr]
    · rw [h2]; try simp [hm]

theorem quiet_finalData (s : St) (w : Nat) (d : Data) (t : Int) :
    ∃ l, (finalData sp s w d t).1.tr = l ++ s.tr ∧ ∀ e ∈ l, QQuiet e := by
  have he : ∀ (s : St) (r : Rec), (ensureSimId sp s r).tr = s.tr := by
    intro s r; simp only [ensureSimId]; split <;> rfl
  simp only [finalData]
  split
  · split
    · exact ⟨[_], by simp only [doOp, he]; rfl, by simp [QQuiet]⟩
    · split
      · exact ⟨[_], rfl, by simp [QQuiet]⟩
      · exact ⟨[], rfl, by simp⟩
  · exact ⟨[], rfl, by simp⟩

theorem quiet_genData (s : St) (w : Nat) (d : Data) (t : Int) :
    ∃ l, (genData sp s w d t).1.tr = l ++ s.tr ∧ ∀ e ∈ l, QQuiet e := by
  have he : ∀ (s : St) (r : Rec), (ensureSimId sp s r).tr = s.tr := by
    intro s r; simp only [ensureSimId]; split <;> rfl
  simp only [genData]
  split
  · rename_i r _
    refine ⟨[.op (.genReturn w r (genStartedOf sp (ensureSimId sp s r) w) t)], ?_, by simp [QQuiet]⟩
    simp only [andThen]
    split
    · simp only [doOp, he]; rfl
    · split <;> (simp only [doOp, he]; rfl)
  · exact ⟨[], rfl, by simp⟩

theorem quiet_simData (s : St) (d : Data) (t : Int) (h : (simData sp s d t).2 = none) :
    ∃ l, (simData sp s d t).1.tr = l ++ s.tr ∧ ∀ e ∈ l, QQuiet e := by
  simp only [simData] at h ⊢
  split
  · rename_i ho
    simp only [ho] at h
    split
    · exact ⟨[], rfl, by simp⟩
    · rename_i hx; rw [if_neg hx] at h; simp at h
  · exact ⟨[_], rfl, by simp [QQuiet]⟩
  · exact ⟨[_], rfl, by simp [QQuiet]⟩

theorem andThen_none {r : R} {f : St → R} (h : (andThen r f).2 = none) : r.2 = none ∧ andThen r f = f r.1 := by
  simp only [andThen] at h ⊢
  split at h
  · simp at h
  · rename_i he; exact ⟨he, rfl⟩

/-- A result that is accepted. -/
theorem updateOnMsg_ok (s : St) {w k : Nat} (d : Data) (t : Int) (hp : wPos sp.gom s.W.length w = some k)
    (h : (updateOnMsg sp s w d t).2 = none) :
    (updateOnMsg sp s w d t).1.W = s.W.modify k (msgEntry d (decide (w ∈ s.pending)) s.exc) ∧
    (updateOnMsg sp s w d t).1.pending = (if d.isFinished = true ∧ w ∈ s.pending then s.pending.erase w else s.pending) ∧
    (updateOnMsg sp s w d t).1.exc = s.exc ∧ (d.isFinished = true ∨ s.exc = true ∨ d.broken = false) ∧
    ∃ l, (updateOnMsg sp s w d t).1.tr = l ++ s.tr ∧ ∀ e ∈ l, QQuiet e := by
  simp only [updateOnMsg] at h ⊢
  rw [sameTab_markIdle s d hp] at h ⊢
  generalize hs1 : ({ s with W := s.W.modify k (fun x =>
      if (!decide (w ∈ s.pending) && !x.activeRecv && !d.keepState) || s.exc then { x with active := 0 } else x) } : St) = s1 at h ⊢
  have hW1 : s1.W = s.W.modify k (fun x =>
      if (!decide (w ∈ s.pending) && !x.activeRecv && !d.keepState) || s.exc then { x with active := 0 } else x) := by rw [← hs1]
  have hp1 : s1.pending = s.pending := by rw [← hs1]
  have he1 : s1.exc = s.exc := by rw [← hs1]
  have ht1 : s1.tr = s.tr := by rw [← hs1]
  clear hs1
  have hlen : s1.W.length = s.W.length := by rw [hW1]; simp
  split
  · rename_i hf
    rw [if_pos hf] at h
    obtain ⟨_, h2⟩ := andThen_none h
    rw [h2]
    have hst := sameTab_finalData (sp := sp) s1 w d t
    obtain ⟨l1, hl1, hq1⟩ := quiet_finalData (sp := sp) s1 w d t
    obtain ⟨g1, g2, g3, _, l2, hl2, hq2⟩ := finishPersis_eq (sp := sp) (finalData sp s1 w d t).1 (w := w) (k := k)
      (by rw [hst.W, hlen]; exact hp)
    have hfin := (isFinished_iff d).mpr hf
    refine ⟨?_, ?_, ?_, .inl hfin, l2 ++ l1, ?_, ?_⟩
    · rw [g1, hst.W, hW1, modify_modify, hst.pending, hp1]
      refine modify_congr_at _ _ _ _ (fun x _ => ?_)
      simp only [msgEntry, hfin, if_true]
      cases hr : x.activeRecv <;> cases hpd : decide (w ∈ s.pending) <;> cases hks : d.keepState <;> cases hex : s.exc <;> simp [hr]
    · rw [g2, hst.pending, hp1]; simp [hfin]
    · rw [g3, hst.exc, he1]
    · rw [hl2, hl1, ht1, List.append_assoc]
    · intro e he
      rcases List.mem_append.mp he with he | he
      · exact hq2 e he
      · exact hq1 e he
  · rename_i hf
    rw [if_neg hf] at h
    have hfin : d.isFinished = false := by
      cases hd : d.isFinished
      · rfl
      · exact absurd ((isFinished_iff d).mp hd) hf
    simp only [workData] at h ⊢
    obtain ⟨h1, h2⟩ := andThen_none h
    rw [h2]
    have hbr : d.isFinished = true ∨ s.exc = true ∨ d.broken = false := by
      by_cases hc : d.calcType = EVAL_SIM
      · rw [if_pos hc] at h1
        cases ho : d.out with
        | other =>
          simp only [simData, ho] at h1
          split at h1
          · rename_i hx; exact .inr (.inl (by rw [← he1]; exact hx))
          · simp at h1
        | none => exact .inr (.inr (by simp [Data.broken, ho]))
        | arr r => exact .inr (.inr (by simp [Data.broken, ho]))
      · exact .inr (.inr (by simp [Data.broken, hc]))
    have key : SameTab s1 (if d.calcType = EVAL_SIM then simData sp s1 d t
        else if d.calcType = EVAL_GEN then genData sp s1 w d t else (s1, none)).1 ∧
        ∃ l, (if d.calcType = EVAL_SIM then simData sp s1 d t
        else if d.calcType = EVAL_GEN then genData sp s1 w d t else (s1, none)).1.tr = l ++ s1.tr ∧ ∀ e ∈ l, QQuiet e := by
      split
      · rename_i hc
        rw [if_pos hc] at h1
        exact ⟨simData_same _ _ _ h1, quiet_simData _ _ _ h1⟩
      · split
        · exact ⟨sameTab_genData _ _ _ _, quiet_genData _ _ _ _⟩
        · exact ⟨.refl _, [], rfl, by simp⟩
    generalize (if d.calcType = EVAL_SIM then simData sp s1 d t
        else if d.calcType = EVAL_GEN then genData sp s1 w d t else (s1, none)).1 = s2 at key
    obtain ⟨hst, l1, hl1, hq1⟩ := key
    cases hper : d.persistent
    · simp only [Bool.false_eq_true, if_false]
      have hfr := sameTab_freeup s2 w
      refine ⟨?_, ?_, ?_, hbr, ?_⟩
      · rw [hfr.W, hst.W, hW1]
        refine modify_congr_at _ _ _ _ (fun x _ => ?_)
        simp only [msgEntry, hfin, hper, Bool.false_eq_true, if_false]
        split <;> rfl
      · rw [hfr.pending, hst.pending, hp1]; simp [hfin]
      · rw [hfr.exc, hst.exc, he1]
      · have : ∃ l2, (freeup s2 w).tr = l2 ++ s2.tr ∧ ∀ e ∈ l2, QQuiet e := by
          simp only [freeup]
          split
          · exact ⟨[], rfl, by simp⟩
          · exact ⟨[_], rfl, by simp [QQuiet]⟩
        obtain ⟨l2, hl2, hq2⟩ := this
        refine ⟨l2 ++ l1, by rw [hl2, hl1, ht1, List.append_assoc], ?_⟩
        intro e he
        rcases List.mem_append.mp he with he | he
        · exact hq2 e he
        · exact hq1 e he
    · simp only [if_true]
      rw [modW_at (k := k) (by rw [hst.W, hlen]; exact hp)]
      refine ⟨?_, ?_, ?_, hbr, l1, by rw [hl1, ht1], hq1⟩
      · simp only
        rw [hst.W, hW1, modify_modify]
        refine modify_congr_at _ _ _ _ (fun x _ => ?_)
        simp only [msgEntry, hfin, hper, Bool.false_eq_true, if_false, if_true]
        split <;> rfl
      · simp only; rw [hst.pending, hp1]; simp [hfin]
      · simp only; rw [hst.exc, he1]

theorem quiet_neutral {e : Ev} (h : QQuiet e) : neutral e = true ∧ hasExc [e] = false := by
  rcases h with ⟨o, rfl⟩ | ⟨w, rfl⟩ <;> exact ⟨rfl, rfl⟩

/-- Agreement after an event of another worker. -/
theorem view_recv_other {w w' : Nat} (h : w' ≠ w) (m : Msg) (tr : List Ev) : view w (.recv w' m :: tr) = view w tr := by
  simp [view, View.step, h]

theorem VI.msgEntry_agree {d : Data} {x : Wrk} {v : View} {p : Bool} (h : Agree x v p) (fin exc : Bool) (w : Nat)
    (hb : d.isFinished = true ∨ exc = true ∨ d.broken = false) :
    Agree (msgEntry d p exc x) (v.step w fin exc (.recv w (.data d))) (p && !d.isFinished) := by
  obtain ⟨h1, h2, h3, h4⟩ := h
  simp only [View.step, if_true, msgEntry]
  cases hf : d.isFinished
  · simp only [Bool.false_eq_true, if_false, Bool.not_false, Bool.and_true]
    refine ⟨?_, h2, ?_, h4⟩
    · simp only [h1, h2, h4]
      cases p <;> cases exc <;> cases hr : x.activeRecv <;> cases hk : d.keepState <;> simp
    · rcases hb with hb | hb | hb
      · rw [hf] at hb; simp at hb
      · simp [h3, hb]
      · simp [h3, hb]
  · simp only [if_true, Bool.not_true, Bool.and_false]
    refine ⟨?_, rfl, rfl, rfl⟩
    simp only [h1, h2, h4]
    cases p <;> cases exc <;> cases hr : x.activeRecv <;> cases hk : d.keepState <;> simp

theorem msgEntry_id (d p exc x) : (msgEntry d p exc x).id = x.id := by simp only [msgEntry]; split <;> rfl

theorem VI.handleMsg {s : St} (h : VI sp s) {w : Nat} (hw : w ∈ ids s) (m : Msg) (t : Int)
    (he : (handleMsg sp s w m t).2 = none) : VI sp (handleMsg sp s w m t).1 := by
  obtain ⟨k, hk, rfl⟩ := (mem_ids h.tab).mp hw
  have hpos : wPos sp.gom s.W.length (idAt sp k) = some k := wPos_idAt hk
  cases m with
  | finished =>
    simp only [Manager.handleMsg]
    have hv : ∀ j, view (idAt sp j) (Manager.emit s (.recv (idAt sp k) .finished)).tr = view (idAt sp j) s.tr := by
      intro j; simp [Manager.emit, view, View.step]
    exact ⟨h.tab, fun j x hj => by rw [hv]; exact h.agree j x hj, h.nd, h.exc⟩
  | log =>
    simp only [Manager.handleMsg]
    have hv : ∀ j, view (idAt sp j) (Manager.emit s (.recv (idAt sp k) .log)).tr = view (idAt sp j) s.tr := by
      intro j; simp [Manager.emit, view, View.step]
    exact ⟨h.tab, fun j x hj => by rw [hv]; exact h.agree j x hj, h.nd, h.exc⟩
  | err =>
    simp only [Manager.handleMsg] at he ⊢
    rw [modW_at (k := k) (by simpa [Manager.emit] using hpos)] at he ⊢
    simp only at he ⊢
    split at he
    · rename_i hx
      rw [if_pos hx]
      refine h.upd (b := { Manager.emit s (.recv (idAt sp k) .err) with W := (Manager.emit s (.recv (idAt sp k) .err)).W.modify k _ }) (j := k)
        (f := fun x => { x with active := 0 }) rfl (l := [.recv (idAt sp k) .err]) rfl ?_ h.nd ?_ ?_ (fun x => rfl)
      · exact h.exc
      · intro j hj
        exact ⟨view_recv_other (fun h => hj (idAt_inj h).symm) _ _, Iff.rfl⟩
      · intro x hx
        have hA := h.agree k x hx
        simp only [Manager.emit, view, View.step, if_true]
        exact ⟨by simp, hA.recv, hA.persis, hA.stopped⟩
    · simp at he
  | data d =>
    simp only [Manager.handleMsg] at he ⊢
    obtain ⟨h1, h2, h3, hb, l, h4, h5⟩ := updateOnMsg_ok (sp := sp) (Manager.emit s (.recv (idAt sp k) (.data d))) (w := idAt sp k) (k := k) d t
      (by simpa [Manager.emit] using hpos) he
    have htr : (updateOnMsg sp (Manager.emit s (.recv (idAt sp k) (.data d))) (idAt sp k) d t).1.tr =
        (l ++ [.recv (idAt sp k) (.data d)]) ++ s.tr := by rw [h4]; simp [Manager.emit]
    have hview : ∀ j, view j (updateOnMsg sp (Manager.emit s (.recv (idAt sp k) (.data d))) (idAt sp k) d t).1.tr =
        view j (.recv (idAt sp k) (.data d) :: s.tr) := by
      intro j; rw [h4, view_neutral _ _ _ (fun e he => (quiet_neutral (h5 e he)).1)]; rfl
    refine h.upd h1 htr ?_ ?_ ?_ ?_ (msgEntry_id _ _ _)
    · rw [h3, h4, hasExc_append, hasExc_false (fun e he => (quiet_neutral (h5 e he)).2)]
      exact h.exc
    · rw [h2]
      split
      · exact h.nd.erase _
      · exact h.nd
    · intro j hj
      have hne : idAt sp j ≠ idAt sp k := fun h => hj (idAt_inj h)
      refine ⟨by rw [hview, view_recv_other (Ne.symm hne)], ?_⟩
      rw [h2]
      split
      · exact List.mem_erase_of_ne hne
      · exact Iff.rfl
    · intro x hx
      have hA := VI.msgEntry_agree (d := d) (h.agree k x hx) (hasFinal s.tr) (hasExc s.tr) (idAt sp k)
        (by rw [← h.exc]; exact hb)
      rw [hview, h2]
      have e1 : (Manager.emit s (.recv (idAt sp k) (.data d))).pending = s.pending := rfl
      have e2 : (Manager.emit s (.recv (idAt sp k) (.data d))).exc = hasExc s.tr := h.exc
      rw [e1, e2]
      have e3 : (decide (idAt sp k ∈ s.pending) && !d.isFinished) =
          decide (idAt sp k ∈ (if d.isFinished = true ∧ idAt sp k ∈ s.pending then s.pending.erase (idAt sp k) else s.pending)) := by
        by_cases hm : idAt sp k ∈ s.pending
        · cases hf : d.isFinished
          · simp [hm]
          · simp [hm, h.nd.not_mem_erase]
        · simp [hm]
      rw [← e3]
      exact hA

theorem killWorkers_eq (s : St) : killWorkers s = { s with tr := ((ids s).map Ev.stop).reverse ++ s.tr } := by
  have : ∀ (l : List Nat) (s : St), l.foldl (fun s w => emit s (.stop w)) s = { s with tr := (l.map Ev.stop).reverse ++ s.tr } := by
    intro l
    induction l with
    | nil => intro s; rfl
    | cons w l ih => intro s; rw [List.foldl_cons, ih]; simp [emit]
  exact this _ _

theorem updateOnMsg_worker (s : St) {w : Nat} (d : Data) (t : Int) (h : (updateOnMsg sp s w d t).2 = some .worker) :
    (updateOnMsg sp s w d t).1 = killWorkers (emit { markIdle sp s w d with exc := true } .exc) ∧
    d.isFinished = false ∧ d.broken = true ∧ (markIdle sp s w d).exc = false := by
  simp only [updateOnMsg] at h ⊢
  generalize markIdle sp s w d = s1 at h ⊢
  have hop : ∀ (s : St) (o : Op), (doOp s o).2 ≠ some .worker := by
    intro s o; simp only [doOp]; cases (apply s.hist o).2 <;> simp
  split at h
  · exfalso
    simp only [andThen] at h
    split at h
    · rename_i e he
      simp only [Option.some.injEq] at h; subst h
      simp only [finalData] at he
      repeat' split at he
      all_goals first | exact hop _ _ he | simp at he
    · simp at h
  · rename_i hf
    rw [if_neg hf]
    have hfin : d.isFinished = false := by
      cases hd : d.isFinished
      · rfl
      · exact absurd ((isFinished_iff d).mp hd) hf
    simp only [workData, andThen] at h ⊢
    by_cases hc : d.calcType = EVAL_SIM
    · simp only [hc, if_true] at h ⊢
      cases ho : d.out with
      | other =>
        simp only [simData, ho] at h ⊢
        cases hx : s1.exc
        · simp only [hx, Bool.false_eq_true, if_false]
          refine ⟨?_, hfin, ?_, ?_⟩ <;> simp [Data.broken, hc, ho]
        · simp only [hx, if_true] at h
          cases hp : d.persistent <;> simp [hp] at h
      | none =>
        exfalso
        simp only [simData, ho] at h
        split at h
        · rename_i e he; simp only [Option.some.injEq] at h; subst h; exact hop _ _ he
        · split at h <;> simp at h
      | arr r =>
        exfalso
        simp only [simData, ho] at h
        split at h
        · rename_i e he; simp only [Option.some.injEq] at h; subst h; exact hop _ _ he
        · split at h <;> simp at h
    · exfalso
      simp only [hc, if_false] at h
      split at h
      · rename_i e he
        simp only [Option.some.injEq] at h; subst h
        by_cases hg : d.calcType = EVAL_GEN
        · simp only [hg, if_true, genData] at he
          split at he
          · simp only [andThen] at he
            split at he
            · rename_i e' he'
              simp only [Option.some.injEq] at he; subst he; exact hop _ _ he'
            · split at he <;> simp at he
          · simp at he
        · simp [hg] at he
      · split at h <;> simp at h

theorem hasExc_stops (l : List Nat) : hasExc (l.map Ev.stop).reverse = false :=
  hasExc_false (fun e he => by
    simp only [List.mem_reverse, List.mem_map] at he
    obtain ⟨w, _, rfl⟩ := he; rfl)

/-- A worker exception. -/
theorem VI.raise {s : St} (h : VI sp s) : VI sp (Manager.killWorkers (Manager.emit { s with exc := true } .exc)) := by
  rw [killWorkers_eq]
  have hn : ∀ e ∈ ((ids (Manager.emit { s with exc := true } .exc)).map Ev.stop).reverse ++ [Ev.exc], neutral e = true := by
    intro e he
    simp only [List.mem_append, List.mem_reverse, List.mem_map, List.mem_singleton] at he
    rcases he with ⟨w, _, rfl⟩ | rfl <;> rfl
  refine ⟨h.tab, fun k x hk => ?_, h.nd, ?_⟩
  · have := h.agree k x hk
    rw [← view_neutral (idAt sp k) _ s.tr hn] at this
    rw [List.append_assoc] at this
    exact this
  · simp only
    rw [hasExc_append]
    simp [Manager.emit, hasExc]

theorem VI.handleMsg_worker {s : St} (h : VI sp s) {w : Nat} (hw : w ∈ ids s) (m : Msg) (t : Int)
    (he : (Manager.handleMsg sp s w m t).2 = some .worker) : VI sp (Manager.handleMsg sp s w m t).1 := by
  obtain ⟨k, hk, rfl⟩ := (mem_ids h.tab).mp hw
  have hpos : wPos sp.gom s.W.length (idAt sp k) = some k := wPos_idAt hk
  cases m with
  | finished => simp [Manager.handleMsg] at he
  | log => simp [Manager.handleMsg] at he
  | err =>
    simp only [Manager.handleMsg] at he ⊢
    rw [modW_at (k := k) (by simpa [Manager.emit] using hpos)] at he ⊢
    simp only at he ⊢
    split at he
    · simp at he
    · rename_i hx
      rw [if_neg hx]
      refine VI.raise (s := { Manager.emit s (.recv (idAt sp k) .err) with W := (Manager.emit s (.recv (idAt sp k) .err)).W.modify k fun x => { x with active := 0 } }) ?_
      refine h.upd (b := { Manager.emit s (.recv (idAt sp k) .err) with W := (Manager.emit s (.recv (idAt sp k) .err)).W.modify k _ }) (j := k)
        (f := fun x => { x with active := 0 }) rfl (l := [.recv (idAt sp k) .err]) rfl ?_ h.nd ?_ ?_ (fun x => rfl)
      · exact h.exc
      · intro j hj
        exact ⟨view_recv_other (fun h => hj (idAt_inj h).symm) _ _, Iff.rfl⟩
      · intro x hx
        have hA := h.agree k x hx
        simp only [Manager.emit, view, View.step, if_true]
        exact ⟨by simp, hA.recv, hA.persis, hA.stopped⟩
  | data d =>
    simp only [Manager.handleMsg] at he ⊢
    obtain ⟨h1, h2, h3, h4⟩ := updateOnMsg_worker _ _ _ he
    rw [h1]
    have hpos' : wPos sp.gom (Manager.emit s (.recv (idAt sp k) (.data d))).W.length (idAt sp k) = some k := hpos
    rw [sameTab_markIdle _ d hpos'] at h4 ⊢
    refine VI.raise (s := { Manager.emit s (.recv (idAt sp k) (.data d)) with W := _ }) ?_
    have hx : s.exc = false := h4
    refine h.upd (b := { Manager.emit s (.recv (idAt sp k) (.data d)) with W := _ }) (j := k) rfl (l := [.recv (idAt sp k) (.data d)]) rfl ?_ h.nd ?_ ?_ ?_
    · exact h.exc
    · intro j hj
      exact ⟨view_recv_other (fun h => hj (idAt_inj h).symm) _ _, Iff.rfl⟩
    · intro x hx'
      obtain ⟨a1, a2, a3, a4⟩ := h.agree k x hx'
      simp only [Manager.emit, view, View.step, if_true, h2, Bool.false_eq_true, if_false, ← h.exc, hx, Bool.false_or, h3, Bool.not_true,
        Bool.and_false, Bool.or_false]
      refine ⟨?_, ?_, ?_, a4⟩
      · simp only [a1, a2, a4]
        cases hr : x.activeRecv <;> cases hpd : decide (idAt sp k ∈ s.pending) <;> cases hks : d.keepState <;> simp
      · simp only [a2]; split <;> rfl
      · simp only [a3]; split <;> rfl
    · intro x; split <;> rfl

/-! ### Shutdown -/

theorem stopPersis_ok {s : St} (h : VI sp s) (hfin : hasFinal s.tr = true) {k : Nat} {x0 : Wrk} (hx0 : s.W[k]? = some x0)
    (hpers : x0.persis ≠ 0) (hnp : idAt sp k ∉ s.pending) (t : Int)
    (he : (stopPersis sp s (idAt sp k) t).2 = none) : VI sp (stopPersis sp s (idAt sp k) t).1 := by
  have hk : k < s.W.length := (List.getElem?_eq_some_iff.mp hx0).1
  have hpos : wPos sp.gom s.W.length (idAt sp k) = some k := wPos_idAt hk
  simp only [stopPersis] at he ⊢
  obtain ⟨h1, h2⟩ := andThen_none he
  rw [h2]
  clear he h2
  simp only
  have key : ∃ s1 l, (stopSend sp s (idAt sp k) t).1 = s1 ∧
      s1.tr = l ++ s.tr ∧ hasExc l = false ∧
      (∀ j, view (idAt sp j) s1.tr = if j = k then { view (idAt sp k) s.tr with busy := true, stopped := true } else view (idAt sp j) s.tr) ∧
      s1.pending = s.pending ∧ s1.exc = s.exc ∧
      (s1.W = s.W ∨ ∃ t, s1.W = s.W.modify k (fun x => { x with genStarted := t })) := by
    simp only [stopSend] at h1 ⊢
    split
    · rename_i hf
      rw [if_pos hf] at h1
      cases hc : checkOrder sp s (lastOrder s) (idAt sp k) true with
      | some e => simp [hc] at h1
      | none =>
        simp only [hc] at h1 ⊢
        obtain ⟨h3, h4⟩ := andThen_none h1
        rw [h4]
        rcases sendOrder_cases (sp := sp) s (lastOrder s) (idAt sp k) t with ⟨hb, _⟩ | ⟨k', wk', l0, l, hS, _⟩
        · exact absurd h3 hb
        · obtain rfl : k' = k := by have := hS.pos; rw [hpos] at this; simpa using this.symm
          have hl0 : ∀ e ∈ l0, neutral e = true ∧ hasExc [e] = false := by
            rcases hS.before with rfl | ⟨team, rfl, _⟩
            · simp
            · intro e he; simp at he; subst he; exact ⟨rfl, rfl⟩
          have hl : ∀ e ∈ l, neutral e = true ∧ hasExc [e] = false := by
            rcases hS.after with rfl | ⟨vals, rfl, _⟩
            · simp
            · intro e he; simp at he; subst he; exact ⟨rfl, rfl⟩
          refine ⟨_, .op (.giveGen (lastOrder s).rows t) :: (l ++ .order (idAt sp k') (idAt sp k') wk' :: l0), rfl, ?_, ?_, ?_, ?_, ?_, ?_⟩
          · simp only [doOp]; rw [hS.tr]; simp
          · refine hasExc_false (fun e he => ?_)
            simp only [List.mem_cons, List.mem_append] at he
            rcases he with rfl | he | rfl | he
            · rfl
            · exact (hl e he).2
            · rfl
            · exact (hl0 e he).2
          · intro j
            have hf0 : hasFinal (l0 ++ s.tr) = true := by rw [hasFinal_append, hfin, Bool.or_true]
            have : view (idAt sp j) (doOp (sendOrder sp s (lastOrder s) (idAt sp k') t).1 (.giveGen (lastOrder s).rows t)).1.tr =
                view (idAt sp j) (.order (idAt sp k') (idAt sp k') wk' :: (l0 ++ s.tr)) := by
              rw [show (doOp (sendOrder sp s (lastOrder s) (idAt sp k') t).1 (.giveGen (lastOrder s).rows t)).1.tr =
                ([Ev.op (.giveGen (lastOrder s).rows t)] ++ l) ++ .order (idAt sp k') (idAt sp k') wk' :: (l0 ++ s.tr) by
                  simp only [doOp]; rw [hS.tr]; simp]
              refine view_neutral _ _ _ (fun e he => ?_)
              simp only [List.singleton_append, List.mem_cons] at he
              rcases he with rfl | he
              · rfl
              · exact (hl e he).1
            rw [this]
            simp only [view, hf0, view_neutral _ _ _ (fun e he => (hl0 e he).1)]
            by_cases hj : j = k'
            · subst hj; simp [View.step]
            · rw [if_neg hj]
              simp only [View.step]
              rw [if_neg (fun h => hj (idAt_inj h).symm)]
          · simp only [doOp]; exact hS.pending
          · simp only [doOp]; exact hS.exc
          · simp only [doOp]; exact hS.W
    · refine ⟨_, [.persisStop (idAt sp k)], rfl, rfl, rfl, ?_, rfl, rfl, .inl rfl⟩
      intro j
      by_cases hj : j = k
      · subst hj; simp [emit, view, View.step]
      · rw [if_neg hj]
        simp only [emit, view, View.step]
        rw [if_neg (fun h => hj (idAt_inj h).symm)]
  obtain ⟨s1, l, hs1, htr, hx, hview, hpend, hexc, hW⟩ := key
  simp only [hs1]
  clear h1 hs1
  have hlen : s1.W.length = s.W.length := by
    rcases hW with h | ⟨t, h⟩ <;> rw [h]
    exact List.length_modify _ _ _
  rw [modW_at (k := k) (by rw [hlen]; exact hpos)]
  have hW' : ∃ g : Wrk → Wrk, (g = id ∨ ∃ t, g = fun x => { x with genStarted := t }) ∧
      s1.W.modify k (fun x => if x.active = 0 then { x with active := x.persis } else x) =
      s.W.modify k (fun x => (fun x => if x.active = 0 then { x with active := x.persis } else x) (g x)) := by
    rcases hW with h | ⟨t', h⟩
    · exact ⟨id, .inl rfl, by rw [h]; rfl⟩
    · exact ⟨_, .inr ⟨t', rfl⟩, by rw [h, modify_modify]⟩
  obtain ⟨g, hg, hgW⟩ := hW'
  refine h.upd (b := { s1 with W := _, pending := s1.pending ++ [idAt sp k] }) (l := l) hgW htr ?_ ?_ ?_ ?_ ?_
  · simp only; rw [hexc, htr, hasExc_append, hx]; exact h.exc
  · simp only; rw [hpend]
    exact List.nodup_append.mpr ⟨h.nd, by simp, by simp; exact fun a ha h => hnp (h ▸ ha)⟩
  · intro j hj
    refine ⟨by simp only; rw [hview j, if_neg hj], ?_⟩
    simp only; rw [hpend]
    simp [show idAt sp j ≠ idAt sp k from fun h => hj (idAt_inj h)]
  · intro x hx
    have hA := h.agree k x hx
    obtain rfl : x0 = x := by rw [hx0] at hx; simpa using hx
    have hg1 : (g x0).active = x0.active ∧ (g x0).persis = x0.persis ∧ (g x0).activeRecv = x0.activeRecv := by
      rcases hg with rfl | ⟨t, rfl⟩ <;> exact ⟨rfl, rfl, rfl⟩
    simp only
    rw [hview k, if_pos rfl, hpend]
    constructor
    · simp only
      split
      · simp [hg1.2.1, hpers]
      · rename_i h; simp [h]
    · simp only [hA.recv]; split <;> simp [hg1]
    · simp only [hA.persis]; split <;> simp [hg1]
    · simp
  · intro x
    simp only
    rcases hg with rfl | ⟨t, rfl⟩ <;> (split <;> rfl)

end Verif.Manager
