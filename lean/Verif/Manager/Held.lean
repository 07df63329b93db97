import Verif.Manager.Once
import Verif.Manager.Recorded
/-
Which worker holds which resource sets: the resource table against the orders and answers.
-/
namespace Verif.Manager
open Verif.History Verif.Res Verif.Sched Verif.Alloc

variable {sp : Specs} {P : St → Reply → Prop} {s0 : St}

/-! ### Specification -/

/-- Does the message end the order of its sender: any result, except those that a persistent function sends while it
runs? -/
def Data.answers (d : Data) : Bool := d.isFinished || !d.persistent

/-- The resource sets that worker `w` holds according to orders and answers: those of its order, until it answers.
An order to a running persistent function brings no sets. -/
def holds (w : Nat) : List Ev → List Nat
  | [] => []
  | e :: tr =>
    match e with
    | .order to _ wk => if to = w ∧ (view w tr).persis = 0 then wk.team.getD [] else holds w tr
    | .recv w' (.data d) => if w' = w ∧ d.answers = true then [] else holds w tr
    | _ => holds w tr

/-- The resource table after the events `tr`. -/
def rmAt (rm0 : RM) : List Ev → RM
  | [] => rm0
  | e :: tr =>
    match e with
    | .assign w team => (assignRsets (rmAt rm0 tr) team w).getD (rmAt rm0 tr)
    | .free w => freeRsets (rmAt rm0 tr) w
    | _ => rmAt rm0 tr

/-- The table says of every set who holds it. -/
def Settled (rm0 : RM) (tr : List Ev) : Prop := ∀ i w, (rmAt rm0 tr).assigned[i]? = some (some w) ↔ i ∈ holds w tr

/-- Messages of running persistent functions say which kind of function they come from. -/
def Sane (tr : List Ev) : Prop := ∀ w d, .recv w (.data d) ∈ tr → d.persistent = true → d.calcType ≠ 0

theorem Sane.suffix {l tr : List Ev} (h : Sane (l ++ tr)) : Sane tr := fun w d hm => h w d (List.mem_append_right _ hm)

/-! ### The table is the result of the recorded changes -/

theorem Micro.rmAt {Q : Ev → Prop} {rm0 : RM} {a b : St} (h : Micro sp Q a b) (ha : a.rm = some (Manager.rmAt rm0 a.tr)) :
    b.rm = some (Manager.rmAt rm0 b.tr) := by
  cases h with
  | ev e h1 h2 h3 _ =>
    cases e with
    | op o => exact absurd rfl (h1 o)
    | assign k t => exact absurd rfl (h2 k t)
    | free w => exact absurd rfl (h3 w)
    | _ => exact ha
  | op o => exact ha
  | mod w f => rw [modW_rm, modW_tr]; exact ha
  | assign w team rm rm' h h' =>
    rw [ha] at h
    simp only [Option.some.injEq] at h
    simp only [Manager.rmAt, h, h', Option.getD_some]
  | free w rm h =>
    rw [ha] at h
    simp only [Option.some.injEq] at h
    simp only [Manager.rmAt, h]
  | _ => exact ha

theorem Micros.rmAt {Q : Ev → Prop} {rm0 : RM} {a b : St} (h : Micros sp Q a b) (ha : a.rm = some (Manager.rmAt rm0 a.tr)) :
    b.rm = some (Manager.rmAt rm0 b.tr) := h.inv (fun _ _ m => m.rmAt) ha

theorem start_rmAt {c : Start} {rm0 : RM} (h0 : c.rm = some rm0) {p : Ph} {s : St} (h : Reach c.sp P c.st p s) :
    s.rm = some (rmAt rm0 s.tr) := h.micros.rmAt h0

theorem rmAt_layout (rm0 : RM) (tr : List Ev) : SameLayout (rmAt rm0 tr) rm0 := by
  induction tr with
  | nil => exact .refl _
  | cons e tr ih =>
    cases e with
    | assign w team => exact (rmStep_layout (rmAt rm0 tr) (.assign team w)).trans ih
    | free w => exact (rmStep_layout (rmAt rm0 tr) (.free w)).trans ih
    | _ => exact ih

/-! ### Assigning and freeing sets -/

theorem assignLoop_assigned (w : Nat) : ∀ (T : List Nat) (rm : RM) (l : List (Nat × Option Nat)), l = T.map (fun i => (i, none)) →
    (∀ i ∈ T, i < rm.assigned.length) →
    ∀ j : Nat, (assignLoop w l rm).assigned[j]? = if j ∈ T then some (some w) else rm.assigned[j]? := by
  intro T
  induction T with
  | nil => intro rm l hl _ j; subst hl; simp [assignLoop]
  | cons i T ih =>
    intro rm l hl hlt j
    subst hl
    simp only [List.map_cons, assignLoop]
    rw [ih _ _ rfl (by
      intro i' hi'
      simp only [List.length_set]
      exact hlt i' (List.mem_cons_of_mem _ hi'))]
    simp only [List.mem_cons]
    by_cases hjT : j ∈ T
    · simp [hjT]
    · rw [if_neg hjT]
      have hi := hlt i List.mem_cons_self
      by_cases hji : j = i
      · subst hji; simp [hi]
      · rw [List.getElem?_set_ne (Ne.symm hji), if_neg (by simp [hji, hjT])]

theorem assignRsets_free {rm : RM} {T : List Nat} (w : Nat) (hf : ∀ i ∈ T, rm.assigned[i]? = some none) :
    ∃ rm', assignRsets rm T w = some rm' ∧ ∀ j : Nat, rm'.assigned[j]? = if j ∈ T then some (some w) else rm.assigned[j]? := by
  have hlt : ∀ i ∈ T, i < rm.assigned.length := fun i hi => (List.getElem?_eq_some_iff.mp (hf i hi)).1
  refine ⟨_, ?_, assignLoop_assigned w T rm (T.map (fun i => (i, (rm.assigned[i]?).getD none))) ?_ hlt⟩
  · unfold assignRsets
    rw [if_pos (by simpa using hlt)]
  · exact List.map_congr_left (fun i hi => by rw [hf i hi]; rfl)

theorem freeRsets_assigned (rm : RM) (w j : Nat) :
    (freeRsets rm w).assigned[j]? = (rm.assigned[j]?).map (fun o => if o = some w then none else o) := by
  simp [freeRsets]

theorem Settled.assign {rm0 : RM} {tr : List Ev} {T : List Nat} (w : Nat)
    (hf : ∀ i ∈ T, (rmAt rm0 tr).assigned[i]? = some none) (j : Nat) :
    (rmAt rm0 (.assign w T :: tr)).assigned[j]? = if j ∈ T then some (some w) else (rmAt rm0 tr).assigned[j]? := by
  obtain ⟨rm', h1, h2⟩ := assignRsets_free w hf
  simp only [rmAt, h1, Option.getD_some]
  exact h2 j

/-! ### Events that change neither what is held nor the table -/

/-- Events that change neither. -/
def still : Ev → Bool
  | .order _ _ _ | .recv _ (.data _) | .assign _ _ | .free _ => false
  | _ => true

theorem holds_still (w : Nat) (l tr : List Ev) (h : ∀ e ∈ l, still e = true) : holds w (l ++ tr) = holds w tr := by
  induction l with
  | nil => rfl
  | cons e l ih =>
    have h1 := ih (fun e he => h e (List.mem_cons_of_mem _ he))
    have h2 := h e List.mem_cons_self
    rw [List.cons_append]
    cases e with
    | order => simp [still] at h2
    | recv w' m => cases m <;> first | (simp [still] at h2; done) | exact h1
    | _ => exact h1

theorem rmAt_still (rm0 : RM) (l tr : List Ev) (h : ∀ e ∈ l, still e = true) : rmAt rm0 (l ++ tr) = rmAt rm0 tr := by
  induction l with
  | nil => rfl
  | cons e l ih =>
    have h1 := ih (fun e he => h e (List.mem_cons_of_mem _ he))
    have h2 := h e List.mem_cons_self
    rw [List.cons_append]
    cases e with
    | assign => simp [still] at h2
    | free => simp [still] at h2
    | _ => exact h1

theorem Settled.still {rm0 : RM} {l tr : List Ev} (hs : Settled rm0 tr) (h : ∀ e ∈ l, Manager.still e = true) : Settled rm0 (l ++ tr) := by
  intro i w
  rw [rmAt_still rm0 l tr h, holds_still w l tr h]
  exact hs i w

/-- Nobody has the same set as somebody else. -/
theorem Settled.disjoint {rm0 : RM} {tr : List Ev} (hs : Settled rm0 tr) {i w w' : Nat} (h : i ∈ holds w tr) (h' : i ∈ holds w' tr) :
    w = w' := by
  have h1 := (hs i w).mpr h
  have h2 := (hs i w').mpr h'
  rw [h1] at h2
  simpa using h2

/-- A free set is held by nobody. -/
theorem Settled.nobody {rm0 : RM} {tr : List Ev} (hs : Settled rm0 tr) {i : Nat} (h : (rmAt rm0 tr).assigned[i]? = some none) (w : Nat) :
    i ∉ holds w tr := by
  intro hm
  have h1 := (hs i w).mpr hm
  rw [h1] at h
  simp at h

/-- A worker that is neither busy nor persistent holds nothing; active-receive mode is for persistent functions. -/
def IdleOk (tr : List Ev) : Prop := ∀ w, ((view w tr).busy = false → (view w tr).persis = 0 → holds w tr = []) ∧
  ((view w tr).recv = true → (view w tr).persis ≠ 0)

theorem IdleOk.still {l tr : List Ev} (hs : IdleOk tr) (h : ∀ e ∈ l, Manager.still e = true ∧ neutral e = true) : IdleOk (l ++ tr) := by
  intro w
  rw [view_neutral w l tr (fun e he => (h e he).2), holds_still w l tr (fun e he => (h e he).1)]
  exact hs w

/-! ### Messages -/

/-- Changes of the history only. -/
def onlyOps (l : List Ev) : Prop := ∀ e ∈ l, ∃ o, e = .op o

theorem onlyOps_still {l : List Ev} (h : onlyOps l) : ∀ e ∈ l, still e = true ∧ neutral e = true := by
  intro e he; obtain ⟨o, rfl⟩ := h e he; exact ⟨rfl, rfl⟩

theorem finalData_ops (s : St) (w : Nat) (d : Data) (t : Int) :
    ∃ l, (finalData sp s w d t).1.tr = l ++ s.tr ∧ onlyOps l := by
  have he : ∀ (s : St) (r : Rec), (ensureSimId sp s r).tr = s.tr := by
    intro s r; simp only [ensureSimId]; split <;> rfl
  simp only [finalData]
  split
  · split
    · exact ⟨[_], by simp only [doOp, he]; rfl, by simp [onlyOps]⟩
    · split
      · exact ⟨[_], rfl, by simp [onlyOps]⟩
      · exact ⟨[], rfl, by simp [onlyOps]⟩
  · exact ⟨[], rfl, by simp [onlyOps]⟩

theorem genData_ops (s : St) (w : Nat) (d : Data) (t : Int) :
    ∃ l, (genData sp s w d t).1.tr = l ++ s.tr ∧ onlyOps l := by
  have he : ∀ (s : St) (r : Rec), (ensureSimId sp s r).tr = s.tr := by
    intro s r; simp only [ensureSimId]; split <;> rfl
  simp only [genData]
  split
  · rename_i r _
    refine ⟨[.op (.genReturn w r (genStartedOf sp (ensureSimId sp s r) w) t)], ?_, by simp [onlyOps]⟩
    simp only [andThen]
    split
    · simp only [doOp, he]; rfl
    · split <;> (simp only [doOp, he]; rfl)
  · exact ⟨[], rfl, by simp [onlyOps]⟩

theorem simData_ops (s : St) (d : Data) (t : Int) (h : (simData sp s d t).2 = none) :
    ∃ l, (simData sp s d t).1.tr = l ++ s.tr ∧ onlyOps l := by
  simp only [simData] at h ⊢
  split
  · rename_i ho
    simp only [ho] at h
    split
    · exact ⟨[], rfl, by simp [onlyOps]⟩
    · rename_i hx; rw [if_neg hx] at h; simp at h
  · exact ⟨[_], rfl, by simp [onlyOps]⟩
  · exact ⟨[_], rfl, by simp [onlyOps]⟩

theorem freeup_tr {s : St} {w : Nat} (hr : s.rm ≠ none) : (freeup s w).tr = .free w :: s.tr := by
  simp only [freeup]
  split
  · rename_i h; exact absurd h hr
  · rfl

/-- An accepted result: the sets of the worker are freed exactly if the message ends its order. -/
theorem updateOnMsg_free (s : St) (w : Nat) (d : Data) (t : Int) {rm : RM} {rm0 : RM} (hrm : s.rm = some rm) (hat : s.rm = some (rmAt rm0 s.tr))
    (h : (updateOnMsg sp s w d t).2 = none) :
    ∃ l, (updateOnMsg sp s w d t).1.tr = (if d.answers = true then [.free w] else []) ++ (l ++ s.tr) ∧ onlyOps l := by
  have hmi : (markIdle sp s w d).tr = s.tr ∧ (markIdle sp s w d).rm = s.rm := by
    simp only [markIdle]; split
    · exact ⟨modW_tr _ _ _, modW_rm _ _ _⟩
    · exact ⟨rfl, rfl⟩
  simp only [updateOnMsg] at h ⊢
  have hat1 : (markIdle sp s w d).rm = some (rmAt rm0 (markIdle sp s w d).tr) := by rw [hmi.1, hmi.2]; exact hat
  generalize markIdle sp s w d = s1 at h hmi hat1
  split
  · rename_i hf
    rw [if_pos hf] at h
    obtain ⟨_, h2⟩ := andThen_none h
    rw [h2]
    obtain ⟨l, hl, ho⟩ := finalData_ops (sp := sp) s1 w d t
    have hr2 : (finalData sp s1 w d t).1.rm ≠ none := by
      rw [(micros_finalData s1 w d t).rmAt hat1]; simp
    refine ⟨l, ?_, ho⟩
    have hans : d.answers = true := by simp [Data.answers, (isFinished_iff d).mpr hf]
    rw [if_pos hans]
    simp only [finishPersis]
    rw [freeup_tr]
    · split
      · rw [modW_tr]
        show Ev.free w :: (modW sp _ _ _).tr = _
        rw [modW_tr, hl, hmi.1]; rfl
      · rw [modW_tr, hl, hmi.1]; rfl
    · split
      · rw [modW_rm]
        show (modW sp _ _ _).rm ≠ none
        rw [modW_rm]; exact hr2
      · rw [modW_rm]; exact hr2
  · rename_i hf
    rw [if_neg hf] at h
    have hfin : d.isFinished = false := by
      cases hd : d.isFinished
      · rfl
      · exact absurd ((isFinished_iff d).mp hd) hf
    simp only [workData] at h ⊢
    obtain ⟨h1, h2⟩ := andThen_none h
    rw [h2]
    have key : (∃ l, (if d.calcType = EVAL_SIM then simData sp s1 d t
        else if d.calcType = EVAL_GEN then genData sp s1 w d t else (s1, none)).1.tr = l ++ s1.tr ∧ onlyOps l) ∧
        (if d.calcType = EVAL_SIM then simData sp s1 d t
        else if d.calcType = EVAL_GEN then genData sp s1 w d t else (s1, none)).1.rm ≠ none := by
      split
      · rename_i hc
        rw [if_pos hc] at h1
        exact ⟨simData_ops _ _ _ h1, by rw [(micros_simData (w := w) s1 d t hc).rmAt hat1]; simp⟩
      · split
        · exact ⟨genData_ops _ _ _ _, by rw [(micros_genData s1 w d t).rmAt hat1]; simp⟩
        · exact ⟨⟨[], rfl, by simp [onlyOps]⟩, by rw [hat1]; simp⟩
    generalize (if d.calcType = EVAL_SIM then simData sp s1 d t
        else if d.calcType = EVAL_GEN then genData sp s1 w d t else (s1, none)).1 = s2 at key
    obtain ⟨⟨l, hl, ho⟩, hr2⟩ := key
    refine ⟨l, ?_, ho⟩
    cases hper : d.persistent
    · simp only [Bool.false_eq_true, if_false]
      rw [if_pos (by simp [Data.answers, hper]), freeup_tr hr2, hl, hmi.1]; rfl
    · simp only [if_true]
      rw [if_neg (by simp [Data.answers, hper, hfin]), modW_tr, hl, hmi.1]; rfl

/-- Resource table and holders after an accepted message. -/
theorem Settled.msg {rm0 : RM} {s : St} {w : Nat} {m : Msg} {t : Int} (hs : Settled rm0 s.tr) (hat : s.rm = some (Manager.rmAt rm0 s.tr))
    (he : (handleMsg sp s w m t).2 = none) : Settled rm0 (handleMsg sp s w m t).1.tr := by
  cases m with
  | finished => exact Settled.still (l := [.recv w .finished]) hs (by simp [Manager.still])
  | log => exact Settled.still (l := [.recv w .log]) hs (by simp [Manager.still])
  | err =>
    simp only [handleMsg] at he ⊢
    split at he
    · rename_i hx
      rw [if_pos hx, modW_tr]
      exact Settled.still (l := [.recv w .err]) hs (by simp [Manager.still])
    · simp at he
  | data d =>
    simp only [handleMsg] at he ⊢
    obtain ⟨l, hl, ho⟩ := updateOnMsg_free (sp := sp) (emit s (.recv w (.data d))) w d t (rm := Manager.rmAt rm0 s.tr) (rm0 := rm0) hat hat he
    rw [hl]
    by_cases ha : d.answers = true
    · rw [if_pos ha]
      intro i w'
      have h1 : (Manager.rmAt rm0 ([Ev.free w] ++ (l ++ (emit s (.recv w (.data d))).tr))) = freeRsets (Manager.rmAt rm0 s.tr) w := by
        simp only [List.singleton_append, Manager.rmAt]
        rw [rmAt_still rm0 l _ (fun e he => (onlyOps_still ho e he).1)]; rfl
      have h2 : holds w' ([Ev.free w] ++ (l ++ (emit s (.recv w (.data d))).tr)) = if w = w' then [] else holds w' s.tr := by
        simp only [List.singleton_append, holds]
        rw [holds_still w' l _ (fun e he => (onlyOps_still ho e he).1)]
        simp only [emit, holds, ha, and_true]
      rw [h1, h2, freeRsets_assigned]
      by_cases hw : w = w'
      · subst hw
        rw [if_pos rfl]
        cases (Manager.rmAt rm0 s.tr).assigned[i]? with
        | none => simp
        | some o => simp only [Option.map_some, Option.some.injEq, List.not_mem_nil, iff_false]; split <;> simp_all
      · rw [if_neg hw, ← hs i w']
        cases (Manager.rmAt rm0 s.tr).assigned[i]? with
        | none => simp
        | some o =>
          simp only [Option.map_some, Option.some.injEq]
          constructor
          · intro h; split at h
            · simp at h
            · exact h
          · intro h; subst h; rw [if_neg (by simpa using Ne.symm hw)]
    · rw [if_neg ha, List.nil_append]
      refine Settled.still ?_ (fun e he => (onlyOps_still ho e he).1)
      intro i w'
      have h2 : holds w' (emit s (.recv w (.data d))).tr = holds w' s.tr := by
        simp only [emit, holds]
        rw [if_neg (fun h => ha h.2)]
      rw [h2]
      exact hs i w'

/-- … and who is idle. -/
theorem IdleOk.msg {rm0 : RM} {s : St} {w : Nat} {m : Msg} {t : Int} (hs : IdleOk s.tr) (hat : s.rm = some (Manager.rmAt rm0 s.tr))
    (hx : s.exc = false) (hxt : hasExc s.tr = false) (hk : ∃ k, wPos sp.gom s.W.length w = some k)
    (hsane : ∀ d, m = .data d → d.persistent = true → d.calcType ≠ 0)
    (he : (handleMsg sp s w m t).2 = none) : IdleOk (handleMsg sp s w m t).1.tr := by
  cases m with
  | finished =>
    intro w'
    simp only [handleMsg, emit, view, View.step, holds]
    split <;> exact hs w'
  | log =>
    intro w'
    simp only [handleMsg, emit, view, View.step, holds]
    split <;> exact hs w'
  | err =>
    simp only [handleMsg] at he
    rw [modW_exc] at he
    simp [emit, hx] at he
  | data d =>
    simp only [handleMsg] at he ⊢
    obtain ⟨l, hl, ho⟩ := updateOnMsg_free (sp := sp) (emit s (.recv w (.data d))) w d t (rm := Manager.rmAt rm0 s.tr) (rm0 := rm0) hat hat he
    obtain ⟨k, hk⟩ := hk
    obtain ⟨_, _, _, hb, _⟩ := updateOnMsg_ok (sp := sp) (emit s (.recv w (.data d))) (w := w) (k := k) d t hk he
    have hb' : d.isFinished = true ∨ d.broken = false := by
      rcases hb with h | h | h
      · exact .inl h
      · have : s.exc = true := h
        rw [hx] at this; simp at this
      · exact .inr h
    intro w'
    have hneut : ∀ e ∈ (if d.answers = true then [Ev.free w] else []) ++ l, neutral e = true := by
      intro e he
      rcases List.mem_append.mp he with he | he
      · split at he <;> simp at he; subst he; rfl
      · exact (onlyOps_still ho e he).2
    have hv : view w' (updateOnMsg sp (emit s (.recv w (.data d))) w d t).1.tr = view w' (.recv w (.data d) :: s.tr) := by
      rw [hl, ← List.append_assoc, view_neutral w' _ _ hneut]; rfl
    have hh : holds w' (updateOnMsg sp (emit s (.recv w (.data d))) w d t).1.tr = if w = w' ∧ d.answers = true then [] else holds w' s.tr := by
      rw [hl]
      have h1 : holds w' ((if d.answers = true then [Ev.free w] else []) ++ (l ++ (emit s (.recv w (.data d))).tr)) =
          holds w' (l ++ (emit s (.recv w (.data d))).tr) := by split <;> rfl
      rw [h1, holds_still w' l _ (fun e he => (onlyOps_still ho e he).1)]
      simp only [emit, holds]
    rw [hv, hh]
    obtain ⟨i1, i2⟩ := hs w'
    by_cases hw : w = w'
    · subst hw
      simp only [view, View.step, if_true, true_and]
      cases hf : d.isFinished
      · have hbr := hb'.resolve_left (by simp [hf])
        simp only [Bool.false_eq_true, if_false, hbr, Bool.not_false, Bool.or_true, Bool.and_true]
        cases hper : d.persistent
        · simp only [Data.answers, hper, hf]
          simp only [Bool.not_false, Bool.or_true, if_true, Bool.false_eq_true, if_false]
          exact ⟨fun _ _ => trivial, i2⟩
        · have hc := hsane d rfl hper
          simp only [if_true]
          exact ⟨fun _ h => absurd h hc, fun _ => hc⟩
      · simp [Data.answers, hf]
    · rw [view_recv_other hw, if_neg (fun h => hw h.1)]
      exact hs w'

end Verif.Manager
