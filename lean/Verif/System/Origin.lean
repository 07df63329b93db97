import Verif.System.Props
/-
Where the orders that a worker answers come from (helper for PropsBack.lean).
-/
namespace Verif.Worker
open Verif.Comms

/-- The newest order of the call that is going on (persistent_support.py:89). -/
def newest : List Ev → Option Order
  | [] => none
  | .start o _ :: _ => some o
  | .utook (_, .work o) :: _ => some o
  | _ :: tr => newest tr

/-- An order has no rows, or is among the messages with another one directly after it. -/
def Backed (L : List Msg) (o : Order) : Prop := o.rows = [] ∨ ∃ X t m Y, L = X ++ (t, .work o) :: m :: Y

theorem Backed.mono {L : List Msg} {o : Order} (h : Backed L o) (ms : List Msg) : Backed (L ++ ms) o := by
  rcases h with h | ⟨X, t, m, Y, rfl⟩
  · exact .inl h
  · exact .inr ⟨X, t, m, Y ++ ms, by simp⟩

def BackedEv (L : List Msg) (e : Ev) (pre : List Ev) : Prop :=
  ∀ x, e = .out x → x ≠ .err → ∀ o, newest pre = some o → Backed L o

def BackedPh (L : List Msg) (w : W) : Prop :=
  match w.ph with
  | .user .. => ∀ o, newest w.tr = some o → Backed L o
  | .userRows _ _ _ _ o' => ∃ t pre, w.tr = .utook (t, .work o') :: pre
  | .needRows o => ∃ t pre, w.tr = .took (t, .work o) :: pre
  | _ => True

theorem backedEv_mono {L ms : List Msg} {tr : List Ev} (h : OnEv (BackedEv L) tr) : OnEv (BackedEv (L ++ ms)) tr :=
  fun post e pre he x hx hn o ho => (h post e pre he x hx hn o ho).mono ms

theorem backedEv_other {L : List Msg} {tr : List Ev} {e : Ev} (h : OnEv (BackedEv L) tr) (he : ∀ x, e = .out x → x = .err) :
    OnEv (BackedEv L) (e :: tr) := onEv_cons h fun x hx hn => absurd (he x hx) hn

theorem backed_step {w w' : W} {L : List Msg} (hs : Step w w') (ht : taken w.tr ++ left w.chan = L)
    (h1 : OnEv (BackedEv L) w.tr) (h2 : BackedPh L w) : OnEv (BackedEv L) w'.tr ∧ BackedPh L w' := by
  have hu : ∀ {o rows h}, w.ph = .user o rows h → ∀ o, newest w.tr = some o → Backed L o := by
    intro o rows h hp; simp only [BackedPh, hp] at h2; exact h2
  have hbs : ∀ {c : Chan Msg} {bs : List Ev} {u : UOut}, ((w.chan.buf = none ∧ c = w.chan ∧ bs = []) ∨
      ∃ m, w.chan.buf = some m ∧ w.chan.recv = (c, some m) ∧ bs = [Ev.buffered m]) →
      OnEv (BackedEv L) (bs ++ .ret u :: w.tr) ∧ newest (bs ++ .ret u :: w.tr) = newest w.tr := by
    rintro c bs u (⟨_, _, rfl⟩ | ⟨m, _, _, rfl⟩)
    · exact ⟨backedEv_other h1 (by simp), rfl⟩
    · exact ⟨backedEv_other (backedEv_other h1 (by simp)) (by simp), rfl⟩
  cases hs
  case stay => exact ⟨h1, h2⟩
  case obs o rows h h' hp => exact ⟨h1, hu hp⟩
  case idleStop m c hp hc hm => exact ⟨backedEv_other (backedEv_other h1 (by simp)) (by simp), trivial⟩
  case idleDrop m c hp hc hf hm => exact ⟨backedEv_other h1 (by simp), trivial⟩
  case idleSkip m c o hp hc hm hd hr => exact ⟨backedEv_other h1 (by simp), trivial⟩
  case idleNeed m c o hp hc hm hd hr =>
    obtain ⟨t, b⟩ := m
    cases hm
    exact ⟨backedEv_other h1 (by simp), t, _, rfl⟩
  case idleCall m c o hp hc hm hd hr ht' =>
    refine ⟨backedEv_other (backedEv_other h1 (by simp)) (by simp), ?_⟩
    intro o' ho'
    simp only [newest, Option.some.injEq] at ho'
    subst ho'; exact .inl hr
  case idleFail m c hp hc hf hk ho => exact ⟨backedEv_other (backedEv_other (backedEv_other h1 (by simp)) (by simp)) (by simp), trivial⟩
  case skipped m c o hp hc => exact ⟨backedEv_other h1 (by simp), trivial⟩
  case rowsFail m c o hp hc ht' => exact ⟨backedEv_other (backedEv_other (backedEv_other h1 (by simp)) (by simp)) (by simp), trivial⟩
  case called m c o hp hc ht' =>
    refine ⟨backedEv_other (backedEv_other h1 (by simp)) (by simp), ?_⟩
    intro o' ho'
    simp only [newest, Option.some.injEq] at ho'
    subst ho'
    simp only [BackedPh, hp] at h2
    obtain ⟨t, pre, h2⟩ := h2
    refine .inr ⟨taken pre, t, m, left c, ?_⟩
    rw [← ht, h2, left_recv hc]; simp [taken]
  case send o rows h h' x hp =>
    exact ⟨onEv_cons h1 fun _ _ _ => hu hp, hu hp⟩
  case raise o rows h hp => exact ⟨backedEv_other (backedEv_other h1 (by simp)) (by simp), trivial⟩
  case retFail o rows h c bs hp hc => exact ⟨backedEv_other (backedEv_other (hbs hc).1 (by simp)) (by simp), trivial⟩
  case retStop o rows h c bs u hp hl hc hu' => exact ⟨backedEv_other (hbs hc).1 (by simp), trivial⟩
  case retAnswer o rows h c bs u s r hp hl hc hs' hu' =>
    refine ⟨onEv_cons (hbs hc).1 fun _ _ _ => ?_, trivial⟩
    rw [(hbs hc).2]; exact hu hp
  case pollDrop o rows h h' m c hp hc hm => exact ⟨backedEv_other h1 (by simp), hu hp⟩
  case pollBack o rows h h' m c hp hc hm => exact ⟨backedEv_other (backedEv_other h1 (by simp)) (by simp), hu hp⟩
  case recvWork o rows h m c o' hp hc hm =>
    obtain ⟨t, b⟩ := m
    cases hm
    exact ⟨backedEv_other h1 (by simp), t, _, rfl⟩
  case recvBack o rows h h' m c hp hc hw hm =>
    refine ⟨backedEv_other (backedEv_other h1 (by simp)) (by simp), ?_⟩
    obtain ⟨t, b⟩ := m
    cases b with
    | work o' => exact absurd rfl (hw o')
    | _ => exact hu hp
  case recvErr o rows h h' m c hp hc hw hm =>
    refine ⟨backedEv_other h1 (by simp), ?_⟩
    obtain ⟨t, b⟩ := m
    cases b with
    | work o' => exact absurd rfl (hw o')
    | _ => exact hu hp
  case rowsBack o rows h h' t o' m c hp hc hm =>
    refine ⟨backedEv_other (backedEv_other h1 (by simp)) (by simp), ?_⟩
    simp only [BackedPh, hp] at h2
    obtain ⟨t', pre, h2⟩ := h2
    intro o2 ho2
    simp only [newest, h2, Option.some.injEq] at ho2
    subst ho2
    refine .inr ⟨taken pre, t', m, left c, ?_⟩
    rw [← ht, h2, left_recv hc]; simp [taken]
  case rowsGot o rows h h' t o' m c hp hc hm =>
    refine ⟨backedEv_other h1 (by simp), ?_⟩
    simp only [BackedPh, hp] at h2
    obtain ⟨t', pre, h2⟩ := h2
    intro o2 ho2
    simp only [newest, h2, Option.some.injEq] at ho2
    subst ho2
    refine .inr ⟨taken pre, t', m, left c, ?_⟩
    rw [← ht, h2, left_recv hc]; simp [taken]

theorem backed_run (F : UserF) (k : Kind) (as : List Act) : OnEv (BackedEv (sends as)) (run F k as).tr := by
  have key : OnEv (BackedEv (taken (run F k as).tr ++ left (run F k as).chan)) (run F k as).tr ∧
      BackedPh (taken (run F k as).tr ++ left (run F k as).chan) (run F k as) := by
    refine run_ind (I := fun _ w => OnEv (BackedEv (taken w.tr ++ left w.chan)) w.tr ∧ BackedPh (taken w.tr ++ left w.chan) w)
      ⟨onEv_nil, trivial⟩ ?_ ?_ ?_ as
    · intro as w m ⟨h1, h2⟩
      show OnEv (BackedEv (taken w.tr ++ left (w.chan.send m))) w.tr ∧ BackedPh (taken w.tr ++ left (w.chan.send m)) { w with chan := w.chan.send m }
      rw [left_send, ← List.append_assoc]
      refine ⟨backedEv_mono h1, ?_⟩
      unfold BackedPh at h2 ⊢
      simp only
      cases hp : w.ph <;> rw [hp] at h2 <;> simp only at h2 ⊢
      case user => exact fun o ho => (h2 o ho).mono _
      all_goals exact h2
    · intro as w ⟨h1, h2⟩
      show OnEv (BackedEv (taken w.tr ++ left w.chan.carry)) w.tr ∧ BackedPh (taken w.tr ++ left w.chan.carry) { w with chan := w.chan.carry }
      rw [left_carry]
      exact ⟨h1, h2⟩
    · intro as w w' ⟨h1, h2⟩ hs
      have := taken_step hs
      rw [this]
      exact backed_step hs rfl h1 h2
  have h := key.1
  rw [taken_run] at h
  exact h

/-- The calls, oldest first. -/
def calls : List Ev → List Order
  | [] => []
  | .start o _ :: tr => calls tr ++ [o]
  | _ :: tr => calls tr

/-- The orders that have been answered, oldest first. -/
def answered : List Ev → List Order
  | [] => []
  | .out (.answer o _ _) :: tr => answered tr ++ [o]
  | _ :: tr => answered tr

/-- The orders among messages. -/
def works (l : List Msg) : List Order := l.filterMap fun m => match m.2 with | .work o => some o | _ => none

theorem works_append (a b : List Msg) : works (a ++ b) = works a ++ works b := List.filterMap_append ..

def waits : Ph → List Order
  | .needRows o => [o]
  | _ => []

def calling : Ph → List Order
  | .user o _ _ => [o]
  | .userRows o _ _ _ _ => [o]
  | _ => []

theorem calls_step {w w' : W} (hs : Step w w') (h : (calls w.tr ++ waits w.ph).Sublist (works (taken w.tr))) :
    (calls w'.tr ++ waits w'.ph).Sublist (works (taken w'.tr)) := by
  have hi : (calls w.tr).Sublist (works (taken w.tr)) := (List.sublist_append_left _ _).trans h
  have more : ∀ m, (calls w.tr).Sublist (works (taken w.tr ++ [m])) := fun m => by
    rw [works_append]; exact hi.trans (List.sublist_append_left _ _)
  have bsx : ∀ {c : Chan Msg} {bs : List Ev} {u : UOut}, ((w.chan.buf = none ∧ c = w.chan ∧ bs = []) ∨
      ∃ m, w.chan.buf = some m ∧ w.chan.recv = (c, some m) ∧ bs = [Ev.buffered m]) →
      (calls (bs ++ .ret u :: w.tr)).Sublist (works (taken (bs ++ .ret u :: w.tr))) := by
    rintro c bs u (⟨_, _, rfl⟩ | ⟨m, _, _, rfl⟩)
    · exact hi
    · exact more m
  cases hs <;> simp only [calls, waits, taken, List.append_nil, List.dropLast_concat]
  case stay => exact h
  case idleNeed m c o hp hc hm hd hr =>
    rw [works_append]
    exact hi.append (by simp [works, hm])
  case idleCall m c o hp hc hm hd hr ht =>
    rw [works_append]
    exact hi.append (by simp [works, hm])
  case called m c o hp hc ht =>
    rw [hp] at h
    rw [works_append]
    exact h.trans (List.sublist_append_left _ _)
  case retFail hc => exact bsx hc
  case retStop hc _ => exact bsx hc
  case retAnswer hc _ _ => exact bsx hc
  all_goals first | exact hi | exact more _

theorem answered_step {w w' : W} (hs : Step w w') (h : (answered w.tr ++ calling w.ph).Sublist (calls w.tr)) :
    (answered w'.tr ++ calling w'.ph).Sublist (calls w'.tr) := by
  have hi : (answered w.tr).Sublist (calls w.tr) := (List.sublist_append_left _ _).trans h
  have bsx : ∀ {c : Chan Msg} {bs : List Ev} {u : UOut}, ((w.chan.buf = none ∧ c = w.chan ∧ bs = []) ∨
      ∃ m, w.chan.buf = some m ∧ w.chan.recv = (c, some m) ∧ bs = [Ev.buffered m]) →
      answered (bs ++ .ret u :: w.tr) = answered w.tr ∧ calls (bs ++ .ret u :: w.tr) = calls w.tr := by
    rintro c bs u (⟨_, _, rfl⟩ | ⟨m, _, _, rfl⟩) <;> exact ⟨rfl, rfl⟩
  cases hs <;> simp only [answered, calls, calling, List.append_nil]
  case stay => exact h
  case idleCall => exact hi.append (List.Sublist.refl _)
  case called => exact hi.append (List.Sublist.refl _)
  case retFail hc => rw [(bsx hc).1, (bsx hc).2]; exact hi
  case retStop hc _ => rw [(bsx hc).1, (bsx hc).2]; exact hi
  case retAnswer hp _ hc _ _ => rw [(bsx hc).1, (bsx hc).2]; rw [hp] at h; exact h
  all_goals first | exact hi | (rename_i hp _; rw [hp] at h; exact h) | (rename_i hp; rw [hp] at h; exact h) | (rename_i hp _ _; rw [hp] at h; exact h) | (rename_i hp _ _ _; rw [hp] at h; exact h)

/-- Every answer belongs to an order of its own. -/
theorem answered_run (F : UserF) (k : Kind) (as : List Act) : (answered (run F k as).tr).Sublist (works (sends as)) := by
  have h1 : (calls (run F k as).tr ++ waits (run F k as).ph).Sublist (works (taken (run F k as).tr)) :=
    run_tr (I := fun w => (calls w.tr ++ waits w.ph).Sublist (works (taken w.tr))) (List.Sublist.refl _) (fun _ _ h => h) (fun _ _ h hs => calls_step hs h) as
  have h2 : (answered (run F k as).tr ++ calling (run F k as).ph).Sublist (calls (run F k as).tr) :=
    run_tr (I := fun w => (answered w.tr ++ calling w.ph).Sublist (calls w.tr)) (List.Sublist.refl _) (fun _ _ h => h) (fun _ _ h hs => answered_step hs h) as
  rw [← taken_run F k as, works_append]
  exact ((List.sublist_append_left _ _).trans h2).trans (((List.sublist_append_left _ _).trans h1).trans (List.sublist_append_left _ _))

end Verif.Worker
