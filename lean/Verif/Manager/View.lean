import Verif.Manager.Micro
import Verif.Manager.Spec
/-
The worker table of the manager agrees with what can be read off the messages.
-/
namespace Verif.Manager
open Verif.History Verif.Res Verif.Sched Verif.Alloc

variable {sp : Specs}

/-! ### The table -/

/-- Worker ids are the table positions. -/
def Tab (sp : Specs) (s : St) : Prop := ids s = (List.range s.W.length).map (idAt sp)

theorem tab_init (n : Nat) (zero gens : List Nat) (h rm p pin) : Tab sp (initSt sp n zero gens h rm p pin) := by
  simp only [Tab, ids, initSt, initW, List.map_map, List.length_map]
  cases hg : sp.gom
  · simp only [Bool.false_eq_true, if_false, List.range'_eq_map_range, List.map_map, List.length_map, List.length_range]
    exact List.map_congr_left (fun i _ => by simp only [Function.comp, idAt, hg]; simp; omega)
  · simp only [if_true, List.length_range]
    exact List.map_congr_left (fun i _ => by simp [idAt, hg])

theorem Micros.tab {Q : Ev → Prop} {a b : St} (h : Micros sp Q a b) (ha : Tab sp a) : Tab sp b := by
  simp only [Tab] at *
  rw [h.ids, h.length]; exact ha

theorem idAt_inj {k k' : Nat} (h : idAt sp k = idAt sp k') : k = k' := by
  simp only [idAt] at h; split at h <;> omega

theorem wPos_idAt {n k : Nat} (hk : k < n) : wPos sp.gom n (idAt sp k) = some k := by
  simp only [wPos, idAt]
  by_cases hg : sp.gom = true <;> simp [hg, hk]

theorem wPos_lt {g : Bool} {n w k : Nat} (h : wPos g n w = some k) : k < n := by
  simp only [wPos] at h
  repeat' split at h
  all_goals first | (simp only [Option.some.injEq] at h; omega) | simp at h

theorem mem_ids {s : St} (ht : Tab sp s) {w : Nat} : w ∈ ids s ↔ ∃ k, k < s.W.length ∧ idAt sp k = w := by
  rw [ht]; simp

theorem ids_nodup {s : St} (ht : Tab sp s) : (ids s).Nodup := by
  rw [ht]
  exact List.pairwise_map.mpr ((List.nodup_range (n := s.W.length)).imp fun h h' => h (idAt_inj h'))

theorem id_at {s : St} (ht : Tab sp s) {k : Nat} {x : Wrk} (h : s.W[k]? = some x) : x.id = idAt sp k := by
  have h1 : (ids s)[k]? = some x.id := by simp [ids, h]
  rw [ht] at h1
  obtain ⟨hk, _⟩ := List.getElem?_eq_some_iff.mp h
  simp [hk] at h1
  exact h1.symm

theorem modW_at {s : St} {w k : Nat} (h : wPos sp.gom s.W.length w = some k) (f : Wrk → Wrk) :
    modW sp s w f = { s with W := s.W.modify k f } := by simp only [modW, h]

theorem getElem?_modify' {α} (l : List α) (k j : Nat) (f : α → α) :
    (l.modify k f)[j]? = if k = j then (l[j]?).map f else l[j]? := by
  rw [List.getElem?_modify]
  split
  · cases l[j]? <;> rfl
  · cases l[j]? <;> rfl

/-! ### Events without effect on the view -/

/-- Events that do not change what is known about any worker. -/
def neutral : Ev → Bool
  | .order _ _ _ => false
  | .persisStop _ => false
  | .recv _ _ => false
  | _ => true

theorem view_neutral (w : Nat) (l tr : List Ev) (h : ∀ e ∈ l, neutral e = true) : view w (l ++ tr) = view w tr := by
  induction l with
  | nil => rfl
  | cons e l ih =>
    have := ih (fun e he => h e (List.mem_cons_of_mem _ he))
    have he := h e List.mem_cons_self
    simp only [List.cons_append, view]
    rw [this]
    cases e <;> simp_all [neutral, View.step]

theorem hasFinal_append (l tr : List Ev) : hasFinal (l ++ tr) = (hasFinal l || hasFinal tr) := by simp [hasFinal]
theorem hasExc_append (l tr : List Ev) : hasExc (l ++ tr) = (hasExc l || hasExc tr) := by simp [hasExc]

/-! ### The invariant -/

/-- Entry `x` of the table agrees with the view `v`; `p`: the worker is in `persis_pending`. -/
structure Agree (x : Wrk) (v : View) (p : Bool) : Prop where
  busy : v.busy = decide (x.active ≠ 0)
  recv : v.recv = x.activeRecv
  persis : v.persis = x.persis
  stopped : v.stopped = p

/-- The table agrees with the messages. -/
structure VI (sp : Specs) (s : St) : Prop where
  tab : Tab sp s
  agree : ∀ k x, s.W[k]? = some x → Agree x (view (idAt sp k) s.tr) (decide (idAt sp k ∈ s.pending))
  nd : s.pending.Nodup
  exc : s.exc = hasExc s.tr

theorem VI.same {a b : St} (h : VI sp a) (hW : b.W = a.W) (hp : b.pending = a.pending) (he : b.exc = a.exc)
    {l : List Ev} (htr : b.tr = l ++ a.tr) (hn : ∀ e ∈ l, neutral e = true) (hx : hasExc l = false) : VI sp b where
  tab := by have := h.tab; simp only [Tab, ids] at *; rw [hW]; exact this
  agree k x hk := by
    rw [htr, view_neutral _ _ _ hn, hp]
    exact h.agree k x (by rw [← hW]; exact hk)
  nd := by rw [hp]; exact h.nd
  exc := by rw [he, htr, hasExc_append, hx, Bool.false_or]; exact h.exc

/-- Change of the entry of one worker together with an event that concerns only that worker. -/
theorem VI.upd {a b : St} (h : VI sp a) {j : Nat} {f : Wrk → Wrk} (hW : b.W = a.W.modify j f)
    {l : List Ev} (htr : b.tr = l ++ a.tr) (hx : b.exc = hasExc b.tr) (hnd : b.pending.Nodup)
    (hoth : ∀ k, k ≠ j → view (idAt sp k) b.tr = view (idAt sp k) a.tr ∧ (idAt sp k ∈ b.pending ↔ idAt sp k ∈ a.pending))
    (hj : ∀ x, a.W[j]? = some x → Agree (f x) (view (idAt sp j) b.tr) (decide (idAt sp j ∈ b.pending)))
    (hid : ∀ x, (f x).id = x.id) : VI sp b where
  tab := by
    have := h.tab
    simp only [Tab, ids] at *
    rw [hW, map_modify_same _ _ hid, List.length_modify]; exact this
  agree k x hk := by
    rw [hW, getElem?_modify'] at hk
    by_cases hkj : k = j
    · subst hkj
      simp only [if_true, Option.map_eq_some_iff] at hk
      obtain ⟨y, hy, rfl⟩ := hk
      exact hj y hy
    · rw [if_neg (Ne.symm hkj)] at hk
      obtain ⟨h1, h2⟩ := hoth k hkj
      rw [h1, decide_eq_decide.mpr h2]
      exact h.agree k x hk
  nd := hnd
  exc := hx

/-! ### Functions that do not touch the table -/

/-- Nothing the view depends on has changed. -/
structure SameTab (a b : St) : Prop where
  W : b.W = a.W
  pending : b.pending = a.pending
  exc : b.exc = a.exc

theorem SameTab.refl (a : St) : SameTab a a := ⟨rfl, rfl, rfl⟩
theorem SameTab.trans {a b c : St} (h : SameTab a b) (h' : SameTab b c) : SameTab a c :=
  ⟨h'.W.trans h.W, h'.pending.trans h.pending, h'.exc.trans h.exc⟩

theorem sameTab_emit (s : St) (e : Ev) : SameTab s (emit s e) := ⟨rfl, rfl, rfl⟩
theorem sameTab_op (s : St) (o : Op) : SameTab s (doOp s o).1 := ⟨rfl, rfl, rfl⟩

theorem sameTab_andThen {s : St} {r : R} {f : St → R} (h : SameTab s r.1) (hf : r.2 = none → SameTab r.1 (f r.1).1) :
    SameTab s (andThen r f).1 := by
  simp only [andThen]
  split
  · exact h
  · rename_i he; exact h.trans (hf he)

theorem sameTab_killLoop (kids : List Nat) (l : List (Nat × Nat)) (s : St) : SameTab s (killLoop sp kids l s).1 := by
  induction l generalizing s with
  | nil => exact .refl s
  | cons x l ih =>
    obtain ⟨i, w⟩ := x
    simp only [killLoop]
    split
    · exact .refl s
    · exact sameTab_andThen ((sameTab_emit _ _).trans (sameTab_op _ _)) (fun _ => ih _)

theorem sameTab_killCancelled (s : St) : SameTab s (killCancelled sp s).1 := by
  simp only [killCancelled]
  split
  · split
    · exact .refl s
    · split
      · exact .refl s
      · exact sameTab_killLoop _ _ _
  · exact .refl s

theorem sameTab_killWorkers (s : St) : SameTab s (killWorkers s) := by
  simp only [killWorkers]
  generalize ids s = l
  induction l generalizing s with
  | nil => exact .refl s
  | cons w l ih => exact (sameTab_emit s _).trans (ih _)

theorem sameTab_saveK (s : St) (b : Bool) : SameTab s (saveK sp s b) := by
  simp only [saveK]
  constructor <;> (repeat' split) <;> rfl

theorem sameTab_setResources (s : St) (wk : Work) (w : Nat) : SameTab s (setResources sp s wk w).1 := by
  simp only [setResources]
  repeat' split
  all_goals exact ⟨rfl, rfl, rfl⟩

theorem sameTab_freeup (s : St) (w : Nat) : SameTab s (freeup s w) := by
  simp only [freeup]; split <;> exact ⟨rfl, rfl, rfl⟩

theorem sameTab_ensureSimId (s : St) (d : Rec) : SameTab s (ensureSimId sp s d) := by
  simp only [ensureSimId]; split <;> exact ⟨rfl, rfl, rfl⟩

theorem sameTab_finalData (s : St) (w : Nat) (d : Data) (t : Int) : SameTab s (finalData sp s w d t).1 := by
  simp only [finalData]
  split
  · split
    · exact (sameTab_ensureSimId _ _).trans (sameTab_op _ _)
    · split
      · exact sameTab_op _ _
      · exact .refl s
  · exact .refl s

theorem sameTab_genData (s : St) (w : Nat) (d : Data) (t : Int) : SameTab s (genData sp s w d t).1 := by
  simp only [genData]
  split
  · refine sameTab_andThen ((sameTab_ensureSimId _ _).trans (sameTab_op _ _)) (fun _ => ?_)
    split <;> exact .refl _
  · exact .refl s

theorem simData_same (s : St) (d : Data) (t : Int) (h : (simData sp s d t).2 = none) : SameTab s (simData sp s d t).1 := by
  simp only [simData] at h ⊢
  split
  · rename_i ho
    simp only [ho] at h
    split
    · exact .refl s
    · rename_i hx; rw [if_neg hx] at h; simp at h
  · exact sameTab_op _ _
  · exact sameTab_op _ _

theorem neutral_QKill {e : Ev} (h : QKill e) : neutral e = true ∧ hasExc [e] = false := by
  cases h <;> exact ⟨rfl, rfl⟩

theorem neutral_QFinish {e : Ev} (h : QFinish e) : neutral e = true ∧ hasExc [e] = false := by
  obtain ⟨w, rfl⟩ := h; exact ⟨rfl, rfl⟩

theorem hasExc_false {l : List Ev} (h : ∀ e ∈ l, hasExc [e] = false) : hasExc l = false := by
  induction l with
  | nil => rfl
  | cons e l ih =>
    have h1 := h e List.mem_cons_self
    have h2 := ih (fun e he => h e (List.mem_cons_of_mem _ he))
    rw [show e :: l = [e] ++ l from rfl, hasExc_append, h1, h2]; rfl

/-- Elementary changes with neutral events that leave the table alone. -/
theorem VI.quiet {Q : Ev → Prop} {a b : St} (h : VI sp a) (hs : SameTab a b) (hm : Micros sp Q a b)
    (hq : ∀ e, Q e → neutral e = true ∧ hasExc [e] = false) : VI sp b := by
  obtain ⟨l, hl, hle⟩ := hm.tr
  exact h.same hs.W hs.pending hs.exc hl (fun e he => (hq e (hle e he)).1) (hasExc_false fun e he => (hq e (hle e he)).2)

theorem VI.emit {s : St} (h : VI sp s) (e : Ev) (hn : neutral e = true) (hx : hasExc [e] = false) : VI sp (emit s e) :=
  h.same rfl rfl rfl (l := [e]) rfl (by simpa using hn) hx

theorem VI.op {s : St} (h : VI sp s) (o : Op) : VI sp (doOp s o).1 :=
  h.same rfl rfl rfl (l := [.op o]) rfl (by simp [neutral]) rfl

theorem VI.killCancelled {s : St} (h : VI sp s) : VI sp (killCancelled sp s).1 :=
  h.quiet (sameTab_killCancelled s) (micros_killCancelled s) (fun _ => neutral_QKill)

theorem VI.saveK {s : St} (h : VI sp s) (b : Bool) : VI sp (saveK sp s b) :=
  h.quiet (sameTab_saveK s b) (micros_saveK (Q := fun _ => False) s b) (fun _ hf => hf.elim)

theorem VI.killWorkers {s : St} (h : VI sp s) : VI sp (killWorkers s) :=
  h.quiet (sameTab_killWorkers s) (micros_killWorkers s) (fun _ => neutral_QFinish)

theorem VI.pinfo {s : St} (h : VI sp s) (p : PInfo) : VI sp { s with pinfo := p } :=
  h.same rfl rfl rfl (l := []) rfl (by simp) rfl

end Verif.Manager
