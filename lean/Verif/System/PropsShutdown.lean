import Verif.System.Shutdown
/-!
Property C75: the shutdown of manager and workers comes to its end.
-/
namespace Verif.System
open Verif Verif.Worker
open Verif.Manager (Always Start Iter Round rounds Bundled AllocEnv)

variable {env : Env} {c : Start} {f : Nat → Iter} {t : Nat → Int} {g : Nat → Round}

/-- What the manager has done after `k` passes of the main loop and, when the main loop has ended, `k` passes of the receiving loop of the
shutdown. -/
def whole (c : Start) (f : Nat → Iter) (t : Nat → Int) (g : Nat → Round) (k : Nat) : Manager.St × Manager.Outcome :=
  c.run (Manager.passes f k) t (rounds g k)

/-- `run` has returned or raised. -/
def Ended (o : Manager.Outcome) : Prop := o ≠ .running ∧ o ≠ .waiting

/-- A course of events for a whole run, the shutdown included: what has been sent to the manager is received some time, unless the run
ends before. -/
abbrev FullCourse (env : Env) (c : Start) (f : Nat → Iter) (t : Nat → Int) (g : Nat → Round) : Type :=
  Track env c.workers (fun k => (whole c f t g k).1.tr) (∃ k, Ended (whole c f t g k).2)

theorem suffix_hasFinal {a b : List Manager.Ev} (h : a <:+ b) (hb : Manager.hasFinal b = false) : Manager.hasFinal a = false := by
  obtain ⟨l, rfl⟩ := h
  rw [Manager.hasFinal_append, Bool.or_eq_false_iff] at hb
  exact hb.2

/-- What the manager does up to a clean place, if nobody has failed and no persistent function has been told to stop. -/
theorem neat_reach {b : Bundled} (hb : b.plain = true) {aenv : AllocEnv} (hg : c.sp.finalGenSend = false) {p : Manager.Ph} {s : Manager.St}
    (hr : Manager.Reach c.sp (b.P aenv c.sp) c.st p s) (hc : p.clean = true) (hd : ∀ x, p ≠ .done x) (hx : s.exc = false)
    (hp : ∀ w, .persisStop w ∉ s.tr) : Always (Neat true) s.tr ∧ Manager.Whole s.tr := by
  obtain ⟨h1, h2⟩ := hr.tidy hg Manager.start_vi Manager.start_tr Manager.start_pending hc
  refine ⟨?_, h2⟩
  have h3 := Manager.plain_orders hb hr
  have h5 := hr.noStop Manager.start_tr hd
  have h6 := (hr.vi Manager.start_vi (by rw [Manager.start_tr]; rfl) Manager.start_pending hc).1
  have h7 : Manager.hasExc s.tr = false := by rw [← h6.exc]; exact hx
  intro post e pre he
  have a1 := h1 post e pre he
  have a3 := h3 post e pre he
  have hm : e ∈ s.tr := by rw [he]; simp
  cases e with
  | order to key wk =>
    obtain ⟨b1, b2, b3, b4⟩ := a1
    obtain ⟨d1, d2⟩ := a3 b1
    refine ⟨b1, b2.imp id (·.1), ?_, d2.imp (·.1) id, .inl ⟨d1, nofun⟩⟩
    cases ha : wk.activeRecv with
    | none => rfl
    | some x => rw [ha] at b3; rw [b3 rfl] at d1; cases d1
  | persisStop to => exact hp to hm
  | stop to => have := h5 to hm; rw [h7] at this; cases this
  | kill to i => rfl
  | _ => trivial

theorem Reach.mainPstop {hg : c.sp.finalGenSend = false} {P : Manager.St → Manager.Reply → Prop} {p : Manager.Ph} {s : Manager.St}
    (hr : Manager.Reach c.sp P c.st p s) (hc : p.clean = true) (hm : p.main = true) : ∀ w, .persisStop w ∉ s.tr := by
  intro w hw
  obtain ⟨post, pre, he⟩ := List.append_of_mem hw
  have h1 := (hr.tidy hg Manager.start_vi Manager.start_tr Manager.start_pending hc).1 post _ pre he
  have h2 := hr.hasFinal (by rw [Manager.start_tr]; rfl)
  rw [hm, he] at h2
  have h3 := suffix_hasFinal (a := pre) ⟨post ++ [.persisStop w], by simp⟩ h2
  have h4 : Manager.hasFinal pre = true := h1.1
  rw [h3] at h4
  cases h4

/-- The record goes through every place on the way. -/
theorem Track.through {V : List Nat} {T : Nat → List Manager.Ev} {over : Prop} (C : Track env V T over) {n : Nat} {a : List Manager.Ev}
    (h : a <:+ (C.at_ n).tr) : ∃ m, m ≤ n ∧ (C.at_ m).tr = a := by
  induction n with
  | zero =>
    refine ⟨0, Nat.le_refl _, ?_⟩
    rw [C.init] at h ⊢
    exact (List.suffix_nil.mp h).symm
  | succ n ih =>
    by_cases hs : a <:+ (C.at_ n).tr
    · obtain ⟨m, hm, he⟩ := ih hs
      exact ⟨m, by omega, he⟩
    · refine ⟨n + 1, Nat.le_refl _, ?_⟩
      have hn := C.next n
      cases ht : C.turn n with
      | man e =>
        rw [ht] at hn
        rw [hn.2] at h ⊢
        rcases List.suffix_cons_iff.mp h with h | h
        · exact h.symm
        · exact absurd h hs
      | carry w => rw [ht] at hn; rw [show C.at_ (n + 1) = _ from hn] at h; exact absurd h hs
      | tick w => rw [ht] at hn; rw [show C.at_ (n + 1) = _ from hn] at h; exact absurd h hs
      | wait => rw [ht] at hn; rw [show C.at_ (n + 1) = _ from hn] at h; exact absurd h hs

/-- After every time there is one at which the record is one of the `T k`. -/
theorem Track.later {V : List Nat} {T : Nat → List Manager.Ev} {over : Prop} (C : Track env V T over) (n : Nat) : ∃ m k, n ≤ m ∧ (C.at_ m).tr = T k := by
  obtain ⟨k, hk⟩ := C.inside n
  obtain ⟨a, ha⟩ := C.passes k
  by_cases hna : n ≤ a
  · exact ⟨a, k, hna, ha⟩
  · refine ⟨n, k, Nat.le_refl _, ?_⟩
    have h1 := C.grow (n := a) (m := n) (by omega)
    rw [ha] at h1
    exact hk.eq_of_length_le h1.length_le

theorem owes_keep {w : Nat} {l tr : List Manager.Ev} (h : Manager.owes w tr = none) (hl : ∀ to key wk, .order to key wk ∉ l) :
    Manager.owes w (l ++ tr) = none := by
  induction l with
  | nil => exact h
  | cons e l ih =>
    have ih := ih fun a b d hm => hl a b d (List.mem_cons_of_mem _ hm)
    rw [List.cons_append]
    cases e with
    | order to key wk => exact absurd List.mem_cons_self (hl to key wk)
    | recv v m =>
      cases m with
      | data d => simp only [Manager.owes]; split <;> first | rfl | exact ih
      | _ => exact ih
    | _ => exact ih

theorem owes_got {w : Nat} {l tr : List Manager.Ev} (hd : ∃ d, .recv w (.data d) ∈ l) (hl : ∀ to key wk, .order to key wk ∉ l) :
    Manager.owes w (l ++ tr) = none := by
  obtain ⟨d, hd⟩ := hd
  obtain ⟨l1, l2, rfl⟩ := List.append_of_mem hd
  rw [List.append_assoc, List.cons_append]
  exact owes_keep (by simp [Manager.owes]) fun a b d hm => hl a b d (by simp [hm])

theorem Stage.plain0 {ow : Option Nat} {p : Nat} {s : W} {Q : List (List Ev × Out)} (h : Stage env true ow p s Q) : p = 0 := by
  have hpv : ∀ o, OkOrder true o → pv o = 0 := by
    intro o ho
    unfold pv
    split
    · rename_i hp; cases (ho.pers hp).1
    · rfl
  have hno : ∀ o : Order, OkOrder true o → o.persistent = true → False := fun o ho hp => by cases (ho.pers hp).1
  cases h with
  | rest h0 => exact h0
  | sent o ho h0 => rw [h0]; exact hpv o ho
  | need o ho h0 => rw [h0]; exact hpv o ho
  | work o rows h ho hp h0 => exact h0
  | done o pre st r ho hp h0 => exact h0
  | ask o r h x y => exact (hno o x y).elim
  | said o r h pre i x y => exact (hno o x y).elim
  | wait o r h x y => exact (hno o x y).elim
  | next o r h o' x y => exact (hno o x y).elim
  | more o r h t o' x y => exact (hno o x y).elim
  | over o pre r x y => exact (hno o x y).elim

theorem ended_stays {k j : Nat} (h : k ≤ j) (hk : (c.loop (Manager.passes f k)).2 ≠ .running) :
    c.loop (Manager.passes f j) = c.loop (Manager.passes f k) := by
  induction j with
  | zero => rw [Nat.le_zero.mp h]
  | succ j ih =>
    by_cases hj : k = j + 1
    · rw [hj]
    · have ih := ih (by omega)
      have h2 : (c.loop (Manager.passes f j)).2 ≠ .running := by rw [ih]; exact hk
      rw [← ih, Manager.passes_succ]
      simp only [Start.loop] at h2 ⊢
      rw [Manager.mainLoop_append, if_neg h2]

/-- As long as a run goes on or waits, its record is that of the main loop, or of a receiving loop in which only messages are received. -/
theorem FullCourse.keeps (C : FullCourse env c f t g) {b : Bundled} (hb : b.plain = true) {aenv : AllocEnv} (hits : ∀ k, (f k).uses b aenv c.sp)
    (hg : c.sp.finalGenSend = false) (hF : ∀ w, Simple (env.F w)) (hcl : ∀ k, (c.loop (Manager.passes f k)).2.clean = true)
    (hno : ∀ k, ¬ Ended (whole c f t g k).2) (k : Nat) :
    (Always (Neat true) (whole c f t g k).1.tr ∧ Manager.Whole (whole c f t g k).1.tr) ∧
    ((c.loop (Manager.passes f k)).2 ≠ .running → Manager.hasFinal (whole c f t g k).1.tr = true ∧
      Manager.VI c.sp (whole c f t g k).1 ∧ (Manager.anyActive (whole c f t g k).1 || Manager.anyPersis (whole c f t g k).1) = true) := by
  by_cases hrun : (c.loop (Manager.passes f k)).2 = .running
  · have h1 := neat_run (c := c) hb hg (Manager.passes_use hits k) hrun
    have h2 : whole c f t g k = ((c.loop (Manager.passes f k)).1, .running) := Manager.running_run hrun
    rw [h2]
    exact ⟨h1, fun h => absurd hrun h⟩
  · have hw : (whole c f t g k).2 = .waiting := by
      have h1 := hno k
      refine Classical.byContradiction fun h2 => h1 ⟨fun h3 => ?_, h2⟩
      simp only [whole, Start.run, Manager.run, Start.loop] at h3 hrun
      generalize Manager.mainLoop c.sp (Manager.passes f k) c.st = y at h3 hrun
      obtain ⟨s, e⟩ := y
      cases e <;> first | exact hrun rfl | (dsimp only at h3; split at h3 <;> cases h3)
    have hk : rounds g k ≠ [] := by
      cases k with
      | zero => exact absurd rfl hrun
      | succ k => simp [rounds]
    obtain ⟨_, h1, h2⟩ := Manager.waiting_cases (c := c) hw
    change (whole c f t g k).1 = _ at h1
    obtain ⟨i1, i2, i3⟩ := Manager.finalPhase_waits h2
    rw [← h1] at i1 i2 i3
    have i2 := i2 hk
    have hR := (Manager.mainLoop_reach (sp := c.sp) (Manager.passes f k) c.st (P := b.P aenv c.sp) (s0 := c.st)
      (fun x hm s => Manager.uses_P (Manager.passes_use hits k x hm) s) .init).2 hrun
    change Manager.Reach c.sp (b.P aenv c.sp) c.st (.over (c.loop (Manager.passes f k)).2) (c.loop (Manager.passes f k)).1 at hR
    have hD := Manager.finalPhase_reach _ t (rounds g k) hR
    rw [h2] at hD
    dsimp only at hD
    rw [← h1] at hD
    have hc := hcl k
    have vD := (hD.vi Manager.start_vi (by rw [Manager.start_tr]; rfl) Manager.start_pending hc).1
    have vR := (hR.vi Manager.start_vi (by rw [Manager.start_tr]; rfl) Manager.start_pending hc).1
    have hsuf : (c.loop (Manager.passes f k)).1.tr <:+ (whole c f t g k).1.tr := List.IsSuffix.trans (List.suffix_cons _ _) i3
    have hxR : (c.loop (Manager.passes f k)).1.exc = false := by
      rw [vR.exc]
      have := vD.exc
      rw [i2] at this
      obtain ⟨l, hl⟩ := hsuf
      rw [← hl, Manager.hasExc_append] at this
      exact (Bool.or_eq_false_iff.mp this.symm).2
    obtain ⟨nR, wR⟩ := neat_reach hb hg hR hc nofun hxR (Reach.mainPstop (hg := hg) hR hc rfl)
    obtain ⟨n, hn⟩ := C.passes k
    obtain ⟨m, _, hm⟩ := C.through (a := (c.loop (Manager.passes f k)).1.tr) (n := n) (by rw [hn]; exact hsuf)
    have hst : Steady env true (C.at_ m).tr (C.at_ m).ws :=
      (C.joint m).steady hF nofun (by rw [hm]; exact nR) (fun w => by rw [hm]; exact framed_suffix wR (List.suffix_refl _) w)
    have hpers : Manager.persisIds (Manager.emit (c.loop (Manager.passes f k)).1 .final) = [] := by
      simp only [Manager.persisIds, List.map_eq_nil_iff, List.filter_eq_nil_iff, decide_eq_true_eq, Decidable.not_not]
      intro x hx
      obtain ⟨j, hj, rfl⟩ := List.getElem_of_mem hx
      have h3 := (vR.agree j _ (List.getElem?_eq_getElem hj)).persis
      rw [← hm] at h3
      exact h3.symm.trans (hst.inv _).stage.plain0
    obtain ⟨h3, _⟩ := Manager.finalPhase_nopers hpers h2
    rw [← h1] at h3
    obtain ⟨l, h4, h5⟩ := Manager.drain_tr (sp := c.sp) (rounds g k) (Manager.emit (c.loop (Manager.passes f k)).1 .final)
    rw [← h3] at h4
    refine ⟨neat_reach hb hg hD hc nofun i2 ?_, fun _ => ⟨hD.hasFinal (by rw [Manager.start_tr]; rfl), vD, i1⟩⟩
    intro w hw
    rw [h4] at hw
    rcases List.mem_append.mp hw with hw | hw
    · exact h5 w hw
    · simp only [Manager.emit, List.mem_cons, reduceCtorEq, false_or] at hw
      exact Reach.mainPstop (hg := hg) hR hc rfl w hw

theorem FullCourse.ends (C : FullCourse env c f t g) {b : Bundled} (hb : b.plain = true) {aenv : AllocEnv} (hits : ∀ k, (f k).uses b aenv c.sp)
    (hg : c.sp.finalGenSend = false) (hF : ∀ w, Simple (env.F w)) (hcl : ∀ k, (c.loop (Manager.passes f k)).2.clean = true)
    (hend : ∃ k, (c.loop (Manager.passes f k)).2 ≠ .running) : ∃ k, Ended (whole c f t g k).2 := by
  refine Classical.byContradiction fun hne => ?_
  have hno : ∀ k, ¬ Ended (whole c f t g k).2 := fun k h => hne ⟨k, h⟩
  have hK := FullCourse.keeps C hb hits hg hF hcl hno
  have hneat : ∀ n, Always (Neat true) (C.at_ n).tr := fun n => by
    obtain ⟨k, hk⟩ := C.inside n
    exact always_suffix (hK k).1.1 hk
  have hfr : ∀ n w, Framed (sentTo w (C.at_ n).tr) := fun n w => by
    obtain ⟨k, hk⟩ := C.inside n
    exact framed_suffix (hK k).1.2 hk w
  have hst : ∀ n, Steady env true (C.at_ n).tr (C.at_ n).ws := fun n => (C.joint n).steady hF nofun (hneat n) (hfr n)
  obtain ⟨K, hKend⟩ := hend
  obtain ⟨n0, hn0⟩ := C.passes K
  have hfin : Manager.hasFinal (C.at_ n0).tr = true := by rw [hn0]; exact ((hK K).2 hKend).1
  -- no orders any more
  have hord : ∀ n m l, n0 ≤ n → (C.at_ m).tr = l ++ (C.at_ n).tr → ∀ to key wk, .order to key wk ∉ l := by
    intro n m l hn hl to key wk hm
    obtain ⟨l1, l2, rfl⟩ := List.append_of_mem hm
    have h1 : Neat true (l2 ++ (C.at_ n).tr) (.order to key wk) := hneat m l1 _ _ (by rw [hl]; simp)
    obtain ⟨l3, hl3⟩ := C.grow hn
    have h2 := h1.1
    rw [← hl3, Manager.hasFinal_append, Manager.hasFinal_append, hfin, Bool.or_true, Bool.or_true] at h2
    cases h2
  have hone : ∀ n w, n0 ≤ n → w ∈ c.workers → ∃ m, n ≤ m ∧ Manager.owes w (C.at_ m).tr = none := by
    intro n w hn hw
    by_cases ho : Manager.owes w (C.at_ n).tr = none
    · exact ⟨n, Nat.le_refl _, ho⟩
    · obtain ⟨m, hm, hlt⟩ := C.answered (K := true) hF nofun hst hneat hfr (fun k => (hK k).1.2) (fun ⟨k, hk⟩ => hno k hk) hw ho
      obtain ⟨l, hl⟩ := C.grow hm
      refine ⟨m, hm, ?_⟩
      rw [← hl]
      refine owes_got ?_ (hord n m l hn hl.symm)
      rw [← hl, got, got, List.countP_append] at hlt
      have hpos : 0 < l.countP (isGot w) := by omega
      obtain ⟨e, he, hge⟩ := List.countP_pos_iff.mp hpos
      cases e with
      | recv v msg =>
        simp only [isGot, Bool.and_eq_true, decide_eq_true_eq] at hge
        obtain ⟨rfl, hge⟩ := hge
        cases msg with
        | data d => exact ⟨d, he⟩
        | err => exact absurd (by rw [← hl]; exact List.mem_append_left _ he) ((hst m).noErr v)
        | _ => cases hge
      | _ => cases hge
  have hall : ∀ vs : List Nat, (∀ w ∈ vs, w ∈ c.workers) → ∃ m, n0 ≤ m ∧ ∀ w ∈ vs, Manager.owes w (C.at_ m).tr = none := by
    intro vs
    induction vs with
    | nil => exact fun _ => ⟨n0, Nat.le_refl _, nofun⟩
    | cons v vs ih =>
      intro hvs
      obtain ⟨n, hn, h1⟩ := ih fun w hw => hvs w (List.mem_cons_of_mem _ hw)
      obtain ⟨m, hm, h2⟩ := hone n v hn (hvs v List.mem_cons_self)
      obtain ⟨l, hl⟩ := C.grow hm
      refine ⟨m, by omega, fun w hw => ?_⟩
      rcases List.mem_cons.mp hw with rfl | hw
      · exact h2
      · rw [← hl]; exact owes_keep (h1 w hw) (hord n m l hn hl.symm)
  obtain ⟨n, hn, hnone⟩ := hall c.workers fun _ h => h
  obtain ⟨m, k, hm, hk⟩ := C.later n
  obtain ⟨l, hl⟩ := C.grow hm
  have hnone : ∀ w ∈ c.workers, Manager.owes w (C.at_ m).tr = none := fun w hw => by
    rw [← hl]; exact owes_keep (hnone w hw) (hord n m l hn hl.symm)
  have hkend : (c.loop (Manager.passes f k)).2 ≠ .running := by
    intro hrun
    have h1 : whole c f t g k = ((c.loop (Manager.passes f k)).1, .running) := Manager.running_run hrun
    obtain ⟨p, hp, hr⟩ := Manager.over_main (c := c) (Manager.passes_use hits k)
    have h2 := hr.hasFinal (by rw [Manager.start_tr]; rfl)
    rw [hp] at h2
    have h3 := suffix_hasFinal (C.grow (n := n0) (m := m) (by omega)) (by rw [hk, h1]; exact h2)
    rw [hfin] at h3
    cases h3
  obtain ⟨_, vi, hact⟩ := (hK k).2 hkend
  have hmem : ∀ x ∈ (whole c f t g k).1.W, x.active = 0 ∧ x.persis = 0 := by
    intro x hx
    obtain ⟨j, hj, rfl⟩ := List.getElem_of_mem hx
    have ha := vi.agree j _ (List.getElem?_eq_getElem hj)
    rw [← hk] at ha
    have hs := hst m
    have hw : Manager.idAt c.sp j ∈ c.workers := by
      obtain ⟨p, _, hr⟩ := Manager.run_reach (sp := c.sp) (P := fun _ _ => True) (s0 := c.st) (Manager.passes f k) t (rounds g k) (fun _ _ _ => trivial)
      rw [← Manager.start_ids, ← hr.micros.ids]
      exact (Manager.mem_ids vi.tab).mpr ⟨j, hj, rfl⟩
    have hb := ha.busy
    rw [hs.view, hnone _ hw] at hb
    refine ⟨?_, ha.persis.symm.trans (hs.inv _).stage.plain0⟩
    simpa using hb.symm
  rw [Bool.or_eq_true] at hact
  rcases hact with h | h
  · simp only [Manager.anyActive, List.any_eq_true, decide_eq_true_eq] at h
    obtain ⟨x, hx, h⟩ := h
    exact h (hmem x hx).1
  · simp only [Manager.anyPersis, List.any_eq_true, decide_eq_true_eq] at h
    obtain ⟨x, hx, h⟩ := h
    exact h (hmem x hx).2

theorem rounds_add (g : Nat → Round) {k j : Nat} (h : k ≤ j) : ∃ l, rounds g j = rounds g k ++ l := by
  obtain ⟨d, rfl⟩ : ∃ d, j = k + d := ⟨j - k, by omega⟩
  exact ⟨_, by rw [rounds, List.range_add, List.map_append]; rfl⟩

theorem running_whole {k : Nat} (h : (c.loop (Manager.passes f k)).2 = .running) : whole c f t g k = ((c.loop (Manager.passes f k)).1, .running) :=
  Manager.running_run h

/-- The main loop goes before the shutdown. -/
theorem loop_whole (k : Nat) : (c.loop (Manager.passes f k)).1.tr <:+ (whole c f t g k).1.tr := by
  by_cases hr : (c.loop (Manager.passes f k)).2 = .running
  · rw [running_whole hr]; exact List.suffix_refl _
  · have h1 := (Manager.run_append c (Manager.passes f k) t [] (rounds g k)).2
    refine List.IsSuffix.trans ?_ h1
    simp only [Start.run, Manager.run, Start.loop] at hr ⊢
    generalize Manager.mainLoop c.sp (Manager.passes f k) c.st = y at hr ⊢
    obtain ⟨s, e⟩ := y
    have hfin : s.tr <:+ (Manager.finalPhase c.sp (Manager.emit s .final) t []).1.tr := by
      refine List.IsSuffix.trans (List.suffix_cons Manager.Ev.final s.tr) ?_
      have h0 := Manager.stopAll_tr (sp := c.sp) t (Manager.persisIds (Manager.emit s .final)) (Manager.emit s .final)
      simp only [Manager.finalPhase]
      generalize Manager.stopAllPersis c.sp t (Manager.persisIds (Manager.emit s .final)) (Manager.emit s .final) = z at h0 ⊢
      obtain ⟨s1, x⟩ := z
      cases x with
      | some x => exact h0
      | none =>
        dsimp only [Manager.drain]
        by_cases ha : (Manager.anyActive s1 || Manager.anyPersis s1) = true
        · rw [if_pos ha]; exact h0
        · rw [if_neg ha]
          obtain ⟨l1, h4, _⟩ := (Manager.micros_saveK (sp := c.sp) (Q := fun _ => False) s1 c.sp.saveDone).tr
          obtain ⟨l2, h5, _⟩ := (Manager.micros_killWorkers (sp := c.sp) (Manager.saveK c.sp s1 c.sp.saveDone)).tr
          exact List.IsSuffix.trans h0 (List.IsSuffix.trans ⟨l1, h4.symm⟩ ⟨l2, h5.symm⟩)
    cases e with
    | running => exact absurd rfl hr
    | _ =>
      dsimp only
      generalize Manager.finalPhase c.sp (Manager.emit s .final) t [] = z at hfin ⊢
      obtain ⟨s1, x⟩ := z
      cases x <;> exact hfin

/-- The record of a whole run grows, and stays as it is when the run has ended. -/
theorem whole_grows {k j : Nat} (h : k ≤ j) : (whole c f t g k).1.tr <:+ (whole c f t g j).1.tr ∧ (Ended (whole c f t g k).2 → whole c f t g j = whole c f t g k) := by
  by_cases hr : (c.loop (Manager.passes f k)).2 = .running
  · have h1 := running_whole (t := t) (g := g) hr
    refine ⟨?_, fun he => ?_⟩
    · rw [h1]
      exact List.IsSuffix.trans (loop_grows c f h) (loop_whole j)
    · rw [h1] at he; exact absurd rfl he.1
  · have h1 := ended_stays h hr
    obtain ⟨l, hl⟩ := rounds_add g h
    have hj : whole c f t g j = c.run (Manager.passes f k) t (rounds g k ++ l) := by
      rw [whole, ← hl]
      simp only [Start.run, Manager.run, Start.loop] at h1 ⊢
      rw [h1]
    rw [hj]
    have h2 := Manager.run_append c (Manager.passes f k) t (rounds g k) l
    exact ⟨h2.2, fun he => h2.1 he.2⟩

theorem ended_loop {k : Nat} (h : Ended (whole c f t g k).2) : (c.loop (Manager.passes f k)).2 ≠ .running := fun hr => by
  rw [running_whole hr] at h; exact h.1 rfl

/-- If the main loop never ends, a course of a whole run is one of the main loop. -/
def FullCourse.course (C : FullCourse env c f t g) (hrun : ∀ k, (c.loop (Manager.passes f k)).2 = .running) : Course env c f where
  at_ := C.at_
  turn := C.turn
  init := C.init
  next := C.next
  inside n := by obtain ⟨k, hk⟩ := C.inside n; exact ⟨k, by rw [← congrArg Prod.fst (running_whole (t := t) (g := g) (hrun k))]; exact hk⟩
  passes k := by obtain ⟨n, hn⟩ := C.passes k; exact ⟨n, by rw [hn, running_whole (hrun k)]⟩
  carries := C.carries
  ticks := C.ticks
  mail w hw n h := (C.mail w hw n h).imp (fun ⟨k, hk⟩ => ⟨k, ended_loop hk⟩) id

/-- Once the main loop has ended, the shutdown comes to its end too: `run` returns or raises an error, the receiving loop does not wait
for ever.  Partial: for the allocation functions without persistent functions, `final_gen_send` off, user functions that only look for
signals and return, and main loops that did not end with an error that leaves the manager's table behind (`clean`; see `C17`). -/
theorem C75_returns_partial (C : FullCourse env c f t g) (b : Bundled) (hb : b.plain = true) (aenv : AllocEnv) (hits : ∀ k, (f k).uses b aenv c.sp)
    (hg : c.sp.finalGenSend = false) (hF : ∀ w, Simple (env.F w)) (hcl : ∀ k, (c.loop (Manager.passes f k)).2.clean = true)
    (hend : ∃ k, (c.loop (Manager.passes f k)).2 ≠ .running) : ∃ k, Ended (whole c f t g k).2 :=
  FullCourse.ends C hb hits hg hF hcl hend

/-- A whole run with `sim_max` comes to its end, the shutdown included.  Partial: as `C75_returns_partial` and `C70_ends_partial`. -/
theorem C75_ends_partial (C : FullCourse env c f t g) (b : Bundled) (hb : b.plain = true) (aenv : AllocEnv) (hits : ∀ k, (f k).uses b aenv c.sp)
    (hg : c.sp.finalGenSend = false) (hF : ∀ w, Simple (env.F w)) (hcl : ∀ k, (c.loop (Manager.passes f k)).2.clean = true)
    (m : Nat) (hm : c.sp.simMax = some m) (hptr : c.pinfo.nextToGive.getD 0 ≤ c.H0.rows.length) (cs : List Nat)
    (hok : ∀ k, (c.loop (Manager.passes f k)).2 = .running → Proper c cs (c.loop (Manager.passes f k)).1.tr)
    (hclock : ∀ k, (f k).e2 ≤ (f (k + 1)).e1) : ∃ k, Ended (whole c f t g k).2 := by
  refine C75_returns_partial C b hb aenv hits hg hF hcl (Classical.byContradiction fun hn => ?_)
  have hrun : ∀ k, (c.loop (Manager.passes f k)).2 = .running := fun k => Classical.byContradiction fun h => hn ⟨k, h⟩
  exact hn (C70_ends_partial (FullCourse.course C hrun) b hb aenv hits hg hF m hm hptr cs hok hclock)

end Verif.System
