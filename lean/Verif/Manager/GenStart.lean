import Verif.Manager.Always
import Verif.Manager.Recorded
import Verif.Manager.Start
import Verif.Manager.HeldRun
/-
The start time that goes with the points of a generator: the time of the last order for a generator that was sent to
the worker.
-/
namespace Verif.Manager
open Verif.History Verif.Res Verif.Sched Verif.Alloc

/-! ### Specification -/

/-- Is the event an order for a generator, sent to worker `w`? -/
def isGenOrder (w : Nat) : Ev → Bool
  | .order to _ wk => decide (to = w) && decide (wk.tag = EVAL_GEN)
  | _ => false

/-- The events since the last order for a generator that was sent to worker `w` (newest first); `none` if there was
no such order. -/
def sinceGen (w : Nat) : List Ev → Option (List Ev)
  | [] => none
  | e :: tr => if isGenOrder w e then some [] else (sinceGen w tr).map (e :: ·)

def isRowsEv : Ev → Bool
  | .rows _ _ _ => true
  | _ => false

/-- What happened first after an order, apart from sending the rows that belong to it. -/
def firstEntry (l : List Ev) : Option Ev := (l.filter fun e => !isRowsEv e).getLast?

/-- `g` is the start time that belongs to worker `v`: 0 if it was never asked to generate; else the time at which the
rows of the last order were entered as returned to the generator, which happens directly after the order. -/
def StartTime (tr : List Ev) (v : Nat) (g : Int) : Prop :=
  match sinceGen v tr with
  | none => g = 0
  | some l => ∃ rows, firstEntry l = some (.op (.giveGen rows g))

/-- The same for runs in which something may have been raised (`ok` is false): an order that is not entered is one that
failed, after which the main loop ends (`over`: this is just happening). -/
def StartOf (ok over : Bool) (tr : List Ev) (v : Nat) (g : Int) : Prop :=
  match sinceGen v tr with
  | none => g = 0
  | some l => match firstEntry l with
    | some (.op (.giveGen _ t)) => g = t
    | some _ => ok = false ∧ hasFinal tr = true
    | none => over = true

theorem StartOf.time {tr : List Ev} {v : Nat} {g : Int} (h : StartOf true false tr v g) : StartTime tr v g := by
  simp only [StartOf, StartTime] at *
  cases hs : sinceGen v tr with
  | none => simp only [hs] at h; exact h
  | some l =>
    simp only [hs] at h ⊢
    split at h
    · rename_i heq
      rw [h]; exact ⟨_, heq⟩
    · simp at h
    · simp at h

/-! ### Proof -/

variable {sp : Specs} {P : St → Reply → Prop} {s0 : St}

theorem sinceGen_skip {w : Nat} {l tr : List Ev} (h : ∀ e ∈ l, isGenOrder w e = false) :
    sinceGen w (l ++ tr) = (sinceGen w tr).map (l ++ ·) := by
  induction l with
  | nil => simp
  | cons e l ih =>
    rw [List.cons_append, sinceGen, if_neg (by rw [h e List.mem_cons_self]; simp),
      ih (fun e he => h e (List.mem_cons_of_mem _ he))]
    cases sinceGen w tr <;> rfl

theorem firstEntry_append {l a : List Ev} {e : Ev} (h : firstEntry a = some e) : firstEntry (l ++ a) = some e := by
  simp only [firstEntry, List.filter_append, List.getLast?_append] at *
  rw [h]; rfl

theorem firstEntry_nil {x : List Ev} {e : Ev} (h : firstEntry x = none) (he : isRowsEv e = false) : firstEntry (e :: x) = some e := by
  simp only [firstEntry, List.getLast?_eq_none_iff] at h ⊢
  rw [List.filter_cons, h, he]; rfl

theorem hasFinal_up {l tr : List Ev} (h : hasFinal tr = true) : hasFinal (l ++ tr) = true := by
  rw [hasFinal_append, h, Bool.or_true]

/-- Events that are not orders for the generator do not change the start time. -/
theorem StartOf.skip {f : Bool} {tr l : List Ev} {v : Nat} {g : Int} (h : StartOf f false tr v g) (hl : ∀ e ∈ l, isGenOrder v e = false) :
    StartOf f false (l ++ tr) v g := by
  simp only [StartOf] at *
  rw [sinceGen_skip hl]
  cases hs : sinceGen v tr with
  | none => simp only [hs] at h; exact h
  | some a =>
    simp only [hs, Option.map_some] at h ⊢
    cases hf : firstEntry a with
    | none => simp [hf] at h
    | some e =>
      rw [firstEntry_append hf]
      simp only [hf] at h
      split at h
      · rename_i heq
        simp only [Option.some.injEq] at heq
        subst heq
        exact h
      · exact ⟨h.1, hasFinal_up h.2⟩
      · rename_i heq; simp at heq

theorem StartOf.weaken {f o : Bool} {tr : List Ev} {v : Nat} {g : Int} (h : StartOf f false tr v g) : StartOf false o tr v g := by
  simp only [StartOf] at *
  cases hs : sinceGen v tr with
  | none => simp only [hs] at h; exact h
  | some a =>
    simp only [hs] at h ⊢
    split at h
    · exact h
    · exact ⟨trivial, h.2⟩
    · simp at h

theorem StartOf.final {o : Bool} {tr : List Ev} {v : Nat} {g : Int} (h : StartOf false o tr v g) : StartOf false false (.final :: tr) v g := by
  simp only [StartOf, sinceGen, isGenOrder] at *
  cases hs : sinceGen v tr with
  | none => simp only [hs] at h; simpa using h
  | some a =>
    simp only [hs] at h
    simp only [Bool.false_eq_true, if_false, Option.map_some]
    cases hf : firstEntry a with
    | none =>
      have : firstEntry (Ev.final :: a) = some .final := by
        simp only [firstEntry, List.getLast?_eq_none_iff] at hf ⊢
        rw [List.filter_cons, hf]; rfl
      rw [this]
      exact ⟨trivial, rfl⟩
    | some e =>
      have := firstEntry_append (l := [.final]) hf
      rw [List.singleton_append] at this
      rw [this]
      simp only [hf] at h
      split at h
      · rename_i heq
        simp only [Option.some.injEq] at heq
        subst heq; exact h
      · exact ⟨h.1, hasFinal_up (l := [.final]) h.2⟩
      · rename_i heq; simp at heq

/-- The start times in the table. -/
def starts (s : St) : List Int := s.W.map (·.genStarted)

theorem starts_modW (s : St) (w : Nat) (f : Wrk → Wrk) (hf : ∀ x, (f x).genStarted = x.genStarted) :
    starts (modW sp s w f) = starts s := modW_map (·.genStarted) f hf s w

theorem starts_sendOrder (s : St) (wk : Work) (w k : Nat) (t : Int) (hp : wPos sp.gom s.W.length w = some k) :
    (starts (sendOrder sp s wk w t).1 = starts s ∧ (sendOrder sp s wk w t).1.tr = s.tr) ∨
    (starts (sendOrder sp s wk w t).1 = if wk.tag = EVAL_GEN then (starts s).set k t else starts s) := by
  have hc := setResources_cases (sp := sp) s wk w
  have hwk := setResources_wk (sp := sp) s wk w
  simp only [sendOrder]
  generalize setResources sp s wk w = x at hc hwk
  obtain ⟨s1, wk1, e⟩ := x
  obtain ⟨hst, hh, hc1, hc2⟩ := hc
  simp only at hst hh hc1 hc2 hwk
  cases e with
  | some e =>
    have := hc2 (by simp)
    subst this
    exact .inl ⟨rfl, rfl⟩
  | none =>
    simp only
    rw [show wPos sp.gom s1.W.length w = some k by rw [hst.W]; exact hp]
    right
    have htag : wk1.tag = wk.tag := by rw [hwk]
    have hs : starts s1 = starts s := by simp only [starts, hst.W]
    simp only [sendRows]
    have key : ∀ s2 : St, s2 = (if wk1.tag = EVAL_GEN then modW sp (emit s1 (.order (idAt sp k) w wk1)) w (fun x => { x with genStarted := t })
        else emit s1 (.order (idAt sp k) w wk1)) → starts s2 = if wk.tag = EVAL_GEN then (starts s).set k t else starts s := by
      rintro s2 rfl
      rw [htag]
      split
      · rw [modW_at (k := k) (by simp only [emit]; rw [hst.W]; exact hp)]
        simp only [starts, emit, hst.W]
        exact List.ext_getElem? fun j => by
          simp only [List.getElem?_map, List.getElem?_modify, List.getElem?_set, List.length_map]
          by_cases hj : k = j
          · subst hj
            have := wPos_lt hp
            simp [this]
          · simp [hj]
      · exact hs
    generalize hg : (if wk1.tag = EVAL_GEN then modW sp (emit s1 (.order (idAt sp k) w wk1)) w (fun x => { x with genStarted := t })
        else emit s1 (.order (idAt sp k) w wk1)) = s2 at key
    have h2 := key s2 rfl
    generalize (if wk.tag = EVAL_GEN then (starts s).set k t else starts s) = z at h2
    repeat' split
    all_goals exact h2

theorem starts_updateOnAlloc (s : St) (wk : Work) (w : Nat) (t : Int) : starts (updateOnAlloc sp s wk w t).1 = starts s := by
  simp only [updateOnAlloc]
  have h := starts_modW (sp := sp) s w (fun x => { x with active := wk.tag }) (fun _ => rfl)
  generalize modW sp s w (fun x => { x with active := wk.tag }) = s1 at h
  split
  · exact h
  · have h2 : starts (if wk.persistent = true then
        modW sp s1 w (fun x => { x with persis := wk.tag, activeRecv := x.activeRecv || wk.activeRecv.getD false }) else s1) = starts s := by
      split
      · rw [starts_modW]
        · exact h
        · exact fun _ => rfl
      · exact h
    generalize (if wk.persistent = true then
        modW sp s1 w (fun x => { x with persis := wk.tag, activeRecv := x.activeRecv || wk.activeRecv.getD false }) else s1) = s2 at h2
    split
    · exact h2
    · split <;> exact h2

/-- The start times in the table are those of the record. -/
def StartsOk (sp : Specs) (ok over : Bool) (s : St) : Prop := ∀ k g, (starts s)[k]? = some g → StartOf ok over s.tr (idAt sp k) g

theorem StartsOk.skip {f : Bool} {a b : St} {l : List Ev} (h : StartsOk sp f false a) (hs : starts b = starts a) (ht : b.tr = l ++ a.tr)
    (hl : ∀ e ∈ l, ∀ v, isGenOrder v e = false) : StartsOk sp f false b := by
  intro k g hg
  rw [ht]
  exact (h k g (by rw [← hs]; exact hg)).skip (fun e he => hl e he _)

theorem StartsOk.weaken {f o : Bool} {a : St} (h : StartsOk sp f false a) : StartsOk sp false o a := fun k g hg => (h k g hg).weaken

theorem StartsOk.sent {a b : St} {w k : Nat} {t : Int} {wk wk' : Work} {l0 l : List Ev} {b0 : Bool} (h : StartsOk sp true false a)
    (hp : wPos sp.gom a.W.length w = some k) (ho : wk' = { wk with team := wk'.team })
    (hs : starts b = if wk.tag = EVAL_GEN then (starts a).set k t else starts a)
    (ht : b.tr = l ++ .order (idAt sp k) w wk' :: (l0 ++ a.tr)) (hl0 : ∀ e ∈ l0, ∀ v, isGenOrder v e = false)
    (hl : ∀ e ∈ l, ∀ v, isGenOrder v e = false)
    (hend : wk.tag = EVAL_GEN → (firstEntry l = none ∧ b0 = true) ∨ ∃ rows, firstEntry l = some (.op (.giveGen rows t))) :
    StartsOk sp (!b0) b0 b := by
  have wk_tag : wk'.tag = wk.tag := by rw [ho]
  intro j g hg
  rw [ht]
  have up : ∀ {x}, StartOf true false x (idAt sp j) g → StartOf (!b0) b0 x (idAt sp j) g := by
    intro x hx; cases b0
    · exact hx
    · exact hx.weaken
  by_cases hgen : wk.tag = EVAL_GEN
  · rw [hs, if_pos hgen, List.getElem?_set] at hg
    by_cases hj : k = j
    · subst hj
      have hlt : k < (starts a).length := by simp only [starts, List.length_map]; exact wPos_lt hp
      simp only [if_true, if_pos hlt, Option.some.injEq] at hg
      subst hg
      have hsince : sinceGen (idAt sp k) (l ++ .order (idAt sp k) w wk' :: (l0 ++ a.tr)) = some l := by
        rw [sinceGen_skip (fun e he => hl e he _), sinceGen, if_pos (by simp [isGenOrder, wk_tag, hgen])]
        simp
      simp only [StartOf, hsince]
      rcases hend hgen with ⟨h1, h2⟩ | ⟨rows, h1⟩
      · rw [h1]; exact h2
      · rw [h1]
    · rw [if_neg hj] at hg
      refine up ?_
      have := h j g hg
      refine StartOf.skip (l := l) ?_ (fun e he => hl e he _)
      refine StartOf.skip (l := [.order (idAt sp k) w wk']) ?_ ?_
      · exact StartOf.skip this (fun e he => hl0 e he _)
      · intro e he
        simp only [List.mem_singleton] at he
        subst he
        simp only [isGenOrder, Bool.and_eq_false_iff, decide_eq_false_iff_not]
        exact .inl fun hh => hj (idAt_inj hh)
  · rw [hs, if_neg hgen] at hg
    refine up ?_
    refine StartOf.skip (l := l) ?_ (fun e he => hl e he _)
    refine StartOf.skip (l := [.order (idAt sp k) w wk']) ?_ ?_
    · exact StartOf.skip (h j g hg) (fun e he => hl0 e he _)
    · intro e he
      simp only [List.mem_singleton] at he
      subst he
      simp [isGenOrder, wk_tag, hgen]

/-- An order of the main loop. -/
theorem StartsOk.order {s : St} (h : StartsOk sp true false s) (wk : Work) (w : Nat) (t : Int) :
    ((handOut sp s wk w t).2 = none → StartsOk sp true false (handOut sp s wk w t).1) ∧ StartsOk sp false true (handOut sp s wk w t).1 := by
  rcases handOut_cases (sp := sp) s wk w t with ⟨e, _, he⟩ | ⟨hc, hcase⟩
  · rw [he]; exact ⟨fun h => by simp at h, h.weaken⟩
  · obtain ⟨k0, x, hk0, hx, _⟩ := checkOrder_none hc
    have hgrow : ∀ {l l0 : List Ev} {e : Ev}, (handOut sp s wk w t).1.tr = l ++ e :: (l0 ++ s.tr) →
        starts (handOut sp s wk w t).1 = if wk.tag = EVAL_GEN then (starts s).set k0 t else starts s := by
      intro l l0 e htr
      have hcons : (handOut sp s wk w t).1.tr ≠ s.tr := by
        rw [htr]; intro hh
        have := congrArg List.length hh
        simp only [List.length_append, List.length_cons] at this
        omega
      rcases starts_sendOrder (sp := sp) s wk w k0 t hk0 with ⟨h1, h2⟩ | h1
      · -- nothing was sent: the order has failed
        exfalso
        rcases sendOrder_cases (sp := sp) s wk w t with ⟨h3, _, _, _⟩ | ⟨k, wk', l0, l, hS, _⟩
        · have : (Manager.handOut sp s wk w t).1 = (sendOrder sp s wk w t).1 := by
            simp only [Manager.handOut, hc, andThen]
            split
            · rfl
            · rename_i hh; exact absurd hh h3
          rw [this, h2] at hcons
          exact hcons rfl
        · have := hS.tr
          rw [h2] at this
          have := congrArg List.length this
          simp only [List.length_append, List.length_cons] at this
          omega
      · have : starts (Manager.handOut sp s wk w t).1 = starts (sendOrder sp s wk w t).1 := by
          simp only [Manager.handOut, hc, andThen]
          split
          · rfl
          · rw [starts_updateOnAlloc]
        rw [this]; exact h1
    have hl0 : ∀ {l0 : List Ev}, (l0 = [] ∨ ∃ team, l0 = [Ev.assign w team]) → ∀ e ∈ l0, ∀ v, isGenOrder v e = false := by
      intro l0 hh e he v
      rcases hh with rfl | ⟨team, rfl⟩
      · simp at he
      · simp only [List.mem_singleton] at he; subst he; rfl
    rcases hcase with ⟨h1, h2, h3, h4⟩ | ⟨k, wk', l0, l, hne, hs⟩ | ⟨k, wk', l0, l, hG, _⟩
    · refine ⟨fun hh => absurd hh h1, StartsOk.weaken (f := true) ?_⟩
      exact h.skip (l := []) (by simp only [starts, h2.W]) h4 (by simp)
    · refine ⟨fun hh => absurd hh hne, ?_⟩
      obtain ⟨s1, hS, htr⟩ : ∃ s1, Sent sp s s1 w k wk wk' l0 l ∧ (Manager.handOut sp s wk w t).1.tr = s1.tr := by
        rcases hs with ⟨hS, _⟩ | ⟨⟨s1, hS, heq⟩, _⟩
        · exact ⟨_, hS, rfl⟩
        · exact ⟨s1, hS, by rw [heq]⟩
      have hk : k = k0 := by have := hS.pos; rw [hk0] at this; simpa using this.symm
      subst hk
      have htr' := htr.trans hS.tr
      have hrows : ∀ e ∈ l, isRowsEv e = true := by
        rcases hS.after with h | ⟨vals, h, _⟩ <;> rw [h] <;> simp [isRowsEv]
      refine h.sent (b0 := true) hS.pos hS.order (hgrow htr') htr' (hl0 ?_) (fun e he v => ?_) (fun _ => .inl ⟨?_, rfl⟩)
      · rcases hS.before with h | ⟨team, h, _⟩
        · exact .inl h
        · exact .inr ⟨team, h⟩
      · have := hrows e he
        cases e <;> simp [isRowsEv] at this <;> rfl
      · simp only [firstEntry, List.getLast?_eq_none_iff, List.filter_eq_nil_iff]
        intro e he; simp [hrows e he]
    · have hk : k = k0 := by have := hG.pos; rw [hk0] at this; simpa using this.symm
      subst hk
      have hrows : ∀ e ∈ l, isRowsEv e = true := by
        rw [hG.after]; split <;> simp [isRowsEv]
      have hl0' : ∀ e ∈ l0, ∀ v, isGenOrder v e = false := hl0 (by
        rcases hG.before with h | ⟨team, h, _⟩
        · exact .inl h
        · exact .inr ⟨team, h⟩)
      have htr := hG.tr
      rw [← List.append_assoc] at htr
      have : StartsOk sp true false (Manager.handOut sp s wk w t).1 := by
        refine h.sent (b0 := false) hG.pos hG.order (hgrow htr) htr hl0' (fun e he v => ?_) (fun hgen => .inr ⟨wk.rows, ?_⟩)
        · rcases List.mem_append.mp he with he | he
          · revert he
            cases orderOp sp wk w t with
            | none => simp
            | some o => intro he; simp only [List.mem_singleton] at he; subst he; rfl
          · have := hrows e he
            cases e <;> simp [isRowsEv] at this <;> rfl
        · have hns : wk.tag ≠ EVAL_SIM := by rw [hgen]; simp [EVAL_GEN, EVAL_SIM]
          have : orderOp sp wk w t = some (.giveGen wk.rows t) := by simp only [orderOp, if_neg hns, if_pos hgen]
          rw [this]
          simp only [firstEntry]
          have hnil : l.filter (fun e => !isRowsEv e) = [] := by
            simp only [List.filter_eq_nil_iff]
            intro e he; simp [hrows e he]
          rw [List.filter_append, hnil]
          simp [isRowsEv]
      exact ⟨fun _ => this, this.weaken⟩

theorem noGenOrder_msg {w : Nat} {m : Msg} {e : Ev} (h : QMsg sp w m e) (v : Nat) : isGenOrder v e = false := by cases h <;> rfl

theorem starts_foldl (l : List Nat) (s : St) : starts (l.foldl (fun s w => emit s (.stop w)) s) = starts s := by
  induction l generalizing s with
  | nil => rfl
  | cons w l ih => exact ih _

theorem starts_killWorkers (s : St) : starts (killWorkers s) = starts s := starts_foldl _ _

theorem starts_freeup (s : St) (w : Nat) : starts (freeup s w) = starts s := by
  simp only [freeup]; split <;> rfl

theorem starts_ensureSimId (s : St) (r : Rec) : starts (ensureSimId sp s r) = starts s := by
  simp only [ensureSimId]; split <;> rfl

theorem starts_markIdle (s : St) (w : Nat) (d : Data) : starts (markIdle sp s w d) = starts s := by
  simp only [markIdle]; split
  · exact starts_modW _ _ _ (fun _ => rfl)
  · rfl

theorem starts_andThen {s : St} {r : R} {f : St → R} (h : starts r.1 = starts s) (hf : ∀ s', starts (f s').1 = starts s') :
    starts (andThen r f).1 = starts s := by
  simp only [andThen]
  split
  · exact h
  · exact (hf _).trans h

theorem starts_finalData (s : St) (w : Nat) (d : Data) (t : Int) : starts (finalData sp s w d t).1 = starts s := by
  simp only [finalData]
  split
  · split
    · exact starts_ensureSimId s _
    · split <;> rfl
  · rfl

theorem starts_finishPersis (s : St) (w : Nat) : starts (finishPersis sp s w) = starts s := by
  simp only [finishPersis]
  rw [starts_freeup]
  have h := starts_modW (sp := sp) s w (fun x => if x.activeRecv then { x with persis := 0, active := 0, activeRecv := false }
    else { x with persis := 0 }) (fun x => by split <;> rfl)
  generalize modW sp s w (fun x => if x.activeRecv then { x with persis := 0, active := 0, activeRecv := false }
    else { x with persis := 0 }) = s1 at h
  split
  · rw [starts_modW]
    · exact h
    · exact fun _ => rfl
  · exact h

theorem starts_updateOnMsg (s : St) (w : Nat) (d : Data) (t : Int) : starts (updateOnMsg sp s w d t).1 = starts s := by
  simp only [updateOnMsg]
  rw [← starts_markIdle (sp := sp) s w d]
  generalize markIdle sp s w d = s1
  split
  · exact starts_andThen (starts_finalData ..) (fun s => starts_finishPersis s w)
  · simp only [workData]
    refine starts_andThen ?_ (fun s => ?_)
    · split
      · simp only [simData]
        split
        · split
          · rfl
          · exact starts_killWorkers _
        · rfl
        · rfl
      · split
        · simp only [genData]
          split
          · refine starts_andThen (starts_ensureSimId s1 _) (fun s => ?_)
            split <;> rfl
          · rfl
        · rfl
    · split
      · exact starts_modW _ _ _ (fun _ => rfl)
      · exact starts_freeup ..

theorem starts_handleMsg (s : St) (w : Nat) (m : Msg) (t : Int) : starts (handleMsg sp s w m t).1 = starts s := by
  simp only [handleMsg]
  cases m with
  | finished => rfl
  | log => rfl
  | err =>
    simp only
    have h := starts_modW (sp := sp) (emit s (.recv w .err)) w (fun x => { x with active := 0 }) (fun _ => rfl)
    generalize modW sp (emit s (.recv w .err)) w (fun x => { x with active := 0 }) = s1 at h
    split
    · exact h
    · exact (starts_killWorkers _).trans h
  | data d => exact starts_updateOnMsg ..

theorem starts_killLoop (kids : List Nat) (l : List (Nat × Nat)) (s : St) : starts (killLoop sp kids l s).1 = starts s := by
  induction l generalizing s with
  | nil => rfl
  | cons x l ih =>
    obtain ⟨i, w⟩ := x
    simp only [killLoop]
    split
    · rfl
    · exact starts_andThen rfl ih

theorem starts_killCancelled (s : St) : starts (killCancelled sp s).1 = starts s := by
  simp only [killCancelled]
  split
  · split
    · rfl
    · split
      · rfl
      · exact starts_killLoop ..
  · rfl

theorem starts_saveK (s : St) (b : Bool) : starts (saveK sp s b) = starts s := by
  simp only [saveK]; split <;> split <;> rfl

theorem tr_saveK (s : St) (b : Bool) : (saveK sp s b).tr = s.tr := by
  simp only [saveK]; split <;> split <;> rfl

theorem starts_stopPersis (s : St) (w : Nat) (t : Int) : starts (stopPersis sp s w t).1 = starts s := by
  simp only [stopPersis]
  refine starts_andThen ?_ (fun s => ?_)
  · simp only [stopSend]
    split
    · split
      · rfl
      · refine starts_andThen ?_ (fun s => rfl)
        cases hp : wPos sp.gom s.W.length w with
        | some k =>
          rcases starts_sendOrder (sp := sp) s (lastOrder s) w k t hp with h | h
          · exact h.1
          · rw [h, if_neg (by simp [lastOrder, PERSIS_STOP, EVAL_GEN])]
        | none =>
          rcases sendOrder_cases (sp := sp) s (lastOrder s) w t with ⟨_, h2, _⟩ | ⟨k, wk', l0, l, hS, _⟩
          · simp only [starts, h2.W]
          · have := hS.pos; rw [hp] at this; simp at this
    · rfl
  · exact starts_modW (sp := sp) s w (fun x => if x.active = 0 then { x with active := x.persis } else x) (fun x => by split <;> rfl)

/-- Has the main loop just failed? -/
def Ph.isOver : Ph → Bool
  | .over e => match e with | .stopped _ | .flagged => false | _ => true
  | _ => false

/-- In every run the table has the start times of the record. -/
theorem Reach.startsOk {p : Ph} {s : St} (h : Reach sp P s0 p s) (ht : s0.tr = []) (h0 : ∀ x ∈ s0.W, x.genStarted = 0) :
    StartsOk sp p.fine p.isOver s := by
  have hmic : ∀ {f : Bool} {a b : St} {Q : Ev → Prop}, Micros sp Q a b → (∀ e, Q e → ∀ v, isGenOrder v e = false) → starts b = starts a →
      StartsOk sp f false a → StartsOk sp f false b := by
    intro f a b Q hm hq hs ha
    obtain ⟨l, hl, hle⟩ := hm.tr
    exact ha.skip hs hl (fun e he => hq e (hle e he))
  have hsave : ∀ {f : Bool} {s : St} {b}, StartsOk sp f false s → StartsOk sp f false (saveK sp s b) :=
    fun {f s b} ih => ih.skip (l := []) (starts_saveK s b) (tr_saveK s b) (by simp)
  have hkill : ∀ {f : Bool} {s : St}, StartsOk sp f false s → StartsOk sp f false (killCancelled sp s).1 :=
    fun {f s} ih => hmic (micros_killCancelled s) (fun e h v => by cases h <;> rfl) (starts_killCancelled s) ih
  have hmsg : ∀ {f : Bool} {s : St} {w m t}, StartsOk sp f false s → StartsOk sp f false (handleMsg sp s w m t).1 :=
    fun {f s w m t} ih => hmic (micros_handleMsg s w m t) (fun e h v => noGenOrder_msg h v) (starts_handleMsg s w m t) ih
  have hop : ∀ {f : Bool} {s : St} {o p}, StartsOk sp f false s → StartsOk sp f false { (doOp s o).1 with pinfo := p } :=
    fun {f s o p} ih => ih.skip (l := [.op o]) rfl rfl (by simp [isGenOrder])
  have hstop : ∀ {f : Bool} {s : St} {w t}, StartsOk sp f false s → StartsOk sp f false (stopPersis sp s w t).1 :=
    fun {f s w t} ih => hmic (micros_stopPersis s w t) (fun e h v => by
      cases h with
      | send wk htag h =>
        cases h with
        | order to wk' hwk =>
          have : wk'.tag = PERSIS_STOP := by rw [hwk]; exact htag
          simp [isGenOrder, this, PERSIS_STOP, EVAL_GEN]
        | _ => rfl
      | _ => rfl) (starts_stopPersis s w t) ih
  induction h with
  | init =>
    intro k g hg
    rw [ht]
    simp only [starts, List.getElem?_map, Option.map_eq_some_iff] at hg
    obtain ⟨x, hx, rfl⟩ := hg
    exact h0 x (List.mem_of_getElem? hx)
  | test e hr h1 ih => exact ih.skip (l := [_]) rfl rfl (by simp [isGenOrder])
  | stop e hr _ ih => exact ih.skip (b := emit _ (.test _)) (l := [_]) rfl rfl (by simp [isGenOrder])
  | kill hr _ ih => exact hkill ih
  | killErr hr _ ih => exact (hkill ih).weaken
  | mail w m t hr hw _ ih => exact hmsg ih
  | mailErr w m t hr hw _ ih => exact (hmsg ih).weaken
  | save _ ih => exact hsave ih
  | allocErr cs hr _ ih => exact (ih.skip (b := (doOp _ (.requestCancel cs)).1) (l := [_]) rfl rfl (by simp [isGenOrder])).weaken
  | allocFlag cs work p hr _ ih => exact hop ih
  | allocOk cs work p t hr _ ih => exact hop ih
  | give hr hm he ih => exact (ih.order _ _ _).1 he
  | giveErr hr hm _ ih => exact (ih.order _ _ _).2
  | again _ _ _ ih => exact ih
  | noWork _ _ ih => exact ih.weaken
  | @final s x hr ih =>
    have hgood : StartsOk sp true false s → StartsOk sp true false (emit s .final) := fun h =>
      h.skip (l := [.final]) rfl rfl (by simp [isGenOrder])
    have hbad : ∀ {o}, StartsOk sp false o s → StartsOk sp false false (emit s .final) := fun h k g hg => StartOf.final (h k g hg)
    cases x with
    | stopped r => exact hgood ih
    | flagged => exact hgood ih
    | running => exact hbad ih
    | raised e => exact hbad ih
  | pstop t hr _ ih => exact hstop ih
  | pstopErr t hr _ ih => exact (hstop ih).weaken
  | drain _ ih => exact ih
  | dmail w m t hr hw _ ih => exact hmsg ih
  | dmailErr w m t hr hw _ ih => exact (hmsg ih).weaken
  | dsave _ ih => exact hsave ih
  | done p hr ih =>
    have h2 := hmic (micros_killWorkers (sp := sp) (saveK sp _ sp.saveDone)) (fun e h v => by obtain ⟨w, rfl⟩ := h; rfl)
      (starts_killWorkers _) (hsave (b := sp.saveDone) ih)
    exact h2

/-- Points of generators are recorded with the start time of the record. -/
def genAt (ok : Bool) (pre : List Ev) : Ev → Prop
  | .op (.genReturn w _ ts _) => StartOf ok false pre w ts
  | _ => True

def noGenRet : Ev → Bool
  | .op (.genReturn _ _ _ _) => false
  | _ => true

theorem genAt_skip {ok : Bool} {l tr : List Ev} (h : Always (genAt ok) tr) (hl : ∀ e ∈ l, noGenRet e = true) :
    Always (genAt ok) (l ++ tr) := by
  refine h.append (fun e he pre => ?_)
  have := hl e he
  cases e with
  | op o => cases o <;> simp [noGenRet] at this <;> trivial
  | _ => trivial

theorem genAt_weaken {ok : Bool} {tr : List Ev} (h : Always (genAt ok) tr) : Always (genAt false) tr := by
  intro post e pre he
  have := h post e pre he
  cases e with
  | op o => cases o <;> first | trivial | exact StartOf.weaken this
  | _ => trivial

theorem genAt_msg {ok : Bool} {s : St} (hv : Tab sp s) (hs : StartsOk sp ok false s) (h : Always (genAt ok) s.tr) {w : Nat} (hw : w ∈ ids s)
    (m : Msg) (t : Int) : Always (genAt ok) (handleMsg sp s w m t).1.tr := by
  obtain ⟨l, hl, hr⟩ := handleMsg_rec (sp := sp) s w m t
  rw [hl]
  have hno : ∀ {l : List Ev}, NoRec l → ∀ e ∈ l, noGenRet e = true := by
    intro l hl e he
    have := hl e he
    cases e with
    | op o => cases o <;> simp [noRec, isResult] at this <;> rfl
    | _ => rfl
  have h1 : Always (genAt ok) (.recv w m :: s.tr) := genAt_skip (l := [.recv w m]) h (by simp [noGenRet])
  rcases hr with ⟨hn, _⟩ | ⟨o, l', rfl, hn, ⟨hrec, hst⟩, _⟩
  · exact genAt_skip h1 (hno hn)
  · rw [List.append_assoc]
    refine genAt_skip (always_cons.mpr ⟨?_, h1⟩) (hno hn)
    cases o with
    | genReturn w' r ts tt =>
      cases m with
      | data d =>
        obtain ⟨_, rfl, _⟩ := hrec
        simp only [startIs] at hst
        obtain ⟨k, hk, rfl⟩ := (mem_ids hv).mp hw
        obtain ⟨x, hx⟩ : ∃ x, s.W[k]? = some x := ⟨_, List.getElem?_eq_getElem hk⟩
        have hg : genStartedOf sp s (idAt sp k) = x.genStarted := by
          simp only [genStartedOf, getW, wPos_idAt hk, Option.bind_some, hx]; rfl
        rw [hg] at hst
        rw [hst]
        exact StartOf.skip (l := [.recv (idAt sp k) (.data d)]) (hs k _ (by simp [starts, hx])) (by simp [isGenOrder])
      | _ => exact hrec.elim
    | _ => trivial

theorem start_genAt {c : Start} {p : Ph} {s : St} (h : Reach c.sp P c.st p s) : Always (genAt p.fine) s.tr := by
  have hz : ∀ x ∈ c.st.W, x.genStarted = 0 := by
    intro x hx
    simp only [Start.st, initSt, initW, List.mem_map] at hx
    obtain ⟨i, _, rfl⟩ := hx
    rfl
  have hmic : ∀ {f : Bool} {a b : St} {Q : Ev → Prop}, Micros c.sp Q a b → (∀ e, Q e → noGenRet e = true) →
      Always (genAt f) a.tr → Always (genAt f) b.tr := by
    intro f a b Q hm hq ha
    obtain ⟨l, hl, hle⟩ := hm.tr
    rw [hl]
    exact genAt_skip ha (fun e he => hq e (hle e he))
  have hone : ∀ {f : Bool} {e : Ev} {tr}, noGenRet e = true → Always (genAt f) tr → Always (genAt f) (e :: tr) :=
    fun {f e tr} he ha => genAt_skip (l := [e]) ha (by simpa using he)
  have hsave : ∀ {f : Bool} {s : St} {b}, Always (genAt f) s.tr → Always (genAt f) (saveK c.sp s b).tr :=
    fun {f s b} ih => by rw [tr_saveK]; exact ih
  have hkill : ∀ {f : Bool} {s : St}, Always (genAt f) s.tr → Always (genAt f) (killCancelled c.sp s).1.tr :=
    fun {f s} ih => hmic (micros_killCancelled s) (fun e h => by cases h <;> rfl) ih
  have hgive : ∀ {f : Bool} {s : St} {wk w t}, Always (genAt f) s.tr → Always (genAt f) (handOut c.sp s wk w t).1.tr :=
    fun {f s wk w t} ih => hmic (micros_handOut s wk w t) (fun e h => by
      cases h with
      | send h => cases h <;> rfl
      | _ => rfl) ih
  have hstop : ∀ {f : Bool} {s : St} {w t}, Always (genAt f) s.tr → Always (genAt f) (stopPersis c.sp s w t).1.tr :=
    fun {f s w t} ih => hmic (micros_stopPersis s w t) (fun e h => by
      cases h with
      | send wk _ h => cases h <;> rfl
      | _ => rfl) ih
  have htab : ∀ {p s}, Reach c.sp P c.st p s → Tab c.sp s := fun hr =>
    hr.micros.tab (tab_init _ _ _ _ _ _ _)
  induction h with
  | init => rw [start_tr]; exact .nil
  | test e hr h1 ih => exact hone rfl ih
  | stop e hr _ ih => exact hone rfl ih
  | kill hr _ ih => exact hkill ih
  | killErr hr _ ih => exact genAt_weaken (hkill ih)
  | mail w m t hr hw _ ih => exact genAt_msg (htab hr) (hr.startsOk start_tr hz) ih hw m t
  | mailErr w m t hr hw _ ih => exact genAt_weaken (genAt_msg (htab hr) (hr.startsOk start_tr hz) ih hw m t)
  | save _ ih => exact hsave ih
  | allocErr cs hr _ ih => exact genAt_weaken (hone rfl ih)
  | allocFlag cs work p hr _ ih => exact hone rfl ih
  | allocOk cs work p t hr _ ih => exact hone rfl ih
  | give hr hm _ ih => exact hgive ih
  | giveErr hr hm _ ih => exact genAt_weaken (hgive ih)
  | again _ _ _ ih => exact ih
  | noWork _ _ ih => exact genAt_weaken ih
  | final hr ih => exact hone rfl ih
  | pstop t hr _ ih => exact hstop ih
  | pstopErr t hr _ ih => exact genAt_weaken (hstop ih)
  | drain _ ih => exact ih
  | dmail w m t hr hw _ ih => exact genAt_msg (htab hr) (hr.startsOk start_tr hz) ih hw m t
  | dmailErr w m t hr hw _ ih => exact genAt_weaken (genAt_msg (htab hr) (hr.startsOk start_tr hz) ih hw m t)
  | dsave _ ih => exact hsave ih
  | done p hr ih =>
    have h2 := hmic (micros_killWorkers (sp := c.sp) (saveK c.sp _ c.sp.saveDone)) (fun e h => by obtain ⟨w, rfl⟩ := h; rfl)
      (hsave (b := c.sp.saveDone) ih)
    exact h2

end Verif.Manager
