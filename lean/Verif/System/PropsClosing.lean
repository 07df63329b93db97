import Verif.System.Closing
/-!
Property C75, with persistent generators: the shutdown of manager and workers comes to its end.
-/
namespace Verif.System
open Verif Verif.Worker
open Verif.Manager (Always Start Iter Round rounds Bundled AllocEnv)

variable {env : Env} {c : Start} {f : Nat → Iter} {t : Nat → Int} {g : Nat → Round}

/-- Nothing is taken or sent; messages may be carried. -/
structure Still (s s' : W) : Prop where
  ph : s'.ph = s.ph
  left : left s'.chan = left s.chan
  buf : s'.chan.buf = s.chan.buf
  inbox : ∃ l, s'.chan.inbox = s.chan.inbox ++ l

theorem Still.refl (s : W) : Still s s := ⟨rfl, rfl, rfl, [], (List.append_nil _).symm⟩

theorem Still.trans {a b d : W} (h1 : Still a b) (h2 : Still b d) : Still a d := by
  obtain ⟨i1, f1⟩ := h1.inbox
  obtain ⟨i2, f2⟩ := h2.inbox
  exact ⟨h2.ph.trans h1.ph, h2.left.trans h1.left, h2.buf.trans h1.buf, i1 ++ i2, by rw [f2, f1, List.append_assoc]⟩

theorem Still.rank {s s' : W} (h : Still s s') : haltRank s' = haltRank s := by
  simp only [haltRank, h.ph, h.left]

/-- Messages are delivered and carried only. -/
theorem Track.still {V : List Nat} {T : Nat → List Manager.Ev} {over : Prop} (C : Track env V T over) (w n : Nat)
    (hs : ∀ e, C.turn n = .man e → msgTo w e = none) :
    (Still ((C.at_ n).ws w) ((C.at_ (n + 1)).ws w) ∧ ((C.at_ (n + 1)).ws w).tr = ((C.at_ n).ws w).tr ∧ C.turn n ≠ .tick w) ∨
    (C.turn n = .tick w ∧ (C.at_ (n + 1)).ws w = tick (env.F w) ((C.at_ n).ws w) ∧ (C.at_ (n + 1)).tr = (C.at_ n).tr) := by
  have h := C.next n
  cases ht : C.turn n with
  | man e =>
    rw [ht] at h
    rw [h.2]
    refine .inl ⟨?_, (deliver_tr w e _).1, nofun⟩
    dsimp only
    unfold deliver
    rw [hs e ht]
    exact Still.refl _
  | wait => rw [ht] at h; rw [show C.at_ (n + 1) = _ from h]; exact .inl ⟨Still.refl _, rfl, nofun⟩
  | carry v =>
    rw [ht] at h
    rw [show C.at_ (n + 1) = _ from h]
    refine .inl ⟨?_, ?_, nofun⟩
    · dsimp only
      split
      · exact ⟨rfl, by simp only [left_carry], carry_buf _, (quiet_carry _).inbox⟩
      · exact Still.refl _
    · dsimp only
      split <;> rfl
  | tick v =>
    rw [ht] at h
    have h0 : C.at_ (n + 1) = _ := h
    by_cases hv : w = v
    · subst hv
      exact .inr ⟨rfl, by rw [h0]; simp, by rw [h0]⟩
    · refine .inl ⟨?_, ?_, fun hx => hv (Turn.tick.inj hx).symm⟩
      · rw [h0]; dsimp only; rw [if_neg hv]; exact Still.refl _
      · rw [h0]; dsimp only; rw [if_neg hv]

theorem ords_pst {l : List Msg} (h : ∀ m ∈ l, m = pst) : ords l = [] := by
  induction l with
  | nil => rfl
  | cons m l ih => rw [h m List.mem_cons_self, ords_cons pst_not_work]; exact ih fun m hm => h m (List.mem_cons_of_mem _ hm)

/-- A generator that was told to stop ends, and the manager receives its last message. -/
theorem Track.leaves {V : List Nat} {T : Nat → List Manager.Ev} {over : Prop} (C : Track env V T over) {w : Nat} (hA : Leaving env (env.F w)) {n : Nat}
    (hT : ∀ m, n ≤ m → Told env w (C.at_ m).tr ((C.at_ m).ws w)) (hsh : ∀ m, n ≤ m → Always Shuts (C.at_ m).tr)
    (hfr : ∀ m, n ≤ m → Framed (sentTo w (C.at_ m).tr)) (hov : ¬ over) (hw : w ∈ V) :
    ∃ m, n ≤ m ∧ ∀ k, m ≤ k → Manager.view w (C.at_ k).tr = {} := by
  have hsil : ∀ m, n ≤ m → ∀ e, C.turn m = .man e → msgTo w e = none := by
    intro m hm e he
    have h := C.next m
    rw [he] at h
    have h1 := hsh (m + 1) (by omega)
    have h2 := hfr (m + 1) (by omega)
    rw [h.2] at h1 h2
    exact (hT m hm).silent (Manager.always_cons.mp h1).1 h2
  have hstep := fun m (hm : n ≤ m) => C.still w m (hsil m hm)
  have htick : ∀ m, n ≤ m → C.turn m = .tick w →
      ((C.at_ (m + 1)).ws w = (C.at_ m).ws w ∧ ((C.at_ m).ws w).chan.inbox = [] ∧ ((C.at_ m).ws w).chan.buf = none) ∨
      haltRank ((C.at_ (m + 1)).ws w) < haltRank ((C.at_ m).ws w) ∨
      (((C.at_ m).ws w).ph = .idle ∧ ((C.at_ (m + 1)).ws w).ph = .idle ∧ (outs ((C.at_ (m + 1)).ws w).tr).length = (outs ((C.at_ m).ws w).tr).length ∧
        ords (left ((C.at_ m).ws w).chan) = [] ∧ ords (left ((C.at_ (m + 1)).ws w).chan) = []) := by
    intro m hm ht
    rcases hstep m hm with ⟨_, _, h⟩ | ⟨_, h1, h2⟩
    · exact absurd ht h
    · have hj := C.joint m
      have hj' := C.joint (m + 1)
      rw [h1]
      rcases (tick_halt hA (hj.got_le w) (hj.fine w).2.2 (hT m hm).frame (by rw [hj.taken w]; exact hfr m hm) (hT m hm).halt).2.2 with h | h | ⟨a, b, d, e⟩
      · exact .inl h
      · exact .inr (.inl h)
      · refine .inr (.inr ⟨a, b, ?_, e⟩)
        have l1 := hj.got_le w
        have l2 := hj'.got_le w
        rw [h1, h2] at l2
        have := congrArg List.length d
        simp only [List.length_drop] at this
        omega
  -- the generator ends
  have hidle : ∀ r m, n ≤ m → haltRank ((C.at_ m).ws w) = r → ∃ k, m ≤ k ∧ ((C.at_ k).ws w).ph = .idle ∧ ords (left ((C.at_ k).ws w).chan) = [] := by
    intro r
    induction r using Nat.strongRecOn with
    | _ r ih =>
    intro m hm hr
    refine Classical.byContradiction fun hno => ?_
    have hlow : ∀ k, m ≤ k → ¬ haltRank ((C.at_ k).ws w) < r := fun k hk h => by
      obtain ⟨j, hj, h1⟩ := ih _ h k (by omega) rfl
      exact hno ⟨j, by omega, h1⟩
    have hone : ∀ k, m ≤ k → haltRank ((C.at_ k).ws w) = r → Still ((C.at_ k).ws w) ((C.at_ (k + 1)).ws w) ∧
        (C.turn k = .tick w → ((C.at_ k).ws w).chan.inbox = [] ∧ ((C.at_ k).ws w).chan.buf = none) := by
      intro k hk hrk
      have key : C.turn k = .tick w → (C.at_ (k + 1)).ws w = (C.at_ k).ws w ∧ ((C.at_ k).ws w).chan.inbox = [] ∧ ((C.at_ k).ws w).chan.buf = none := by
        intro ht
        rcases htick k (by omega) ht with h | h | ⟨h1, _, _, h2, _⟩
        · exact h
        · rw [hrk] at h; exact absurd h (hlow (k + 1) (by omega))
        · exact absurd ⟨k, hk, h1, h2⟩ hno
      refine ⟨?_, fun ht => (key ht).2⟩
      rcases hstep k (by omega) with ⟨h, _⟩ | ⟨h, _⟩
      · exact h
      · rw [(key h).1]; exact Still.refl _
    have hst : ∀ a b, m ≤ a → a ≤ b → haltRank ((C.at_ a).ws w) = r → Still ((C.at_ a).ws w) ((C.at_ b).ws w) := by
      intro a b ha hab hra
      induction b with
      | zero => rw [Nat.le_zero.mp hab]; exact Still.refl _
      | succ b ihb =>
        by_cases h : a = b + 1
        · rw [h]; exact Still.refl _
        · have h1 := ihb (by omega)
          exact h1.trans (hone b (by omega) (h1.rank.trans hra)).1
    have hrk : ∀ a, m ≤ a → haltRank ((C.at_ a).ws w) = r := fun a ha => (hst m a (Nat.le_refl _) ha hr).rank.trans hr
    have hleft : left ((C.at_ m).ws w).chan ≠ [] := by
      have htail : ∀ {os}, Tail ((C.at_ m).ws w) os → left ((C.at_ m).ws w).chan ≠ [] := fun h => by
        obtain ⟨l, hl, _⟩ := h.last
        rw [hl]; simp
      have hh := (hT m hm).halt
      generalize Manager.view w (C.at_ m).tr = v at hh
      cases hh with
      | sent o ho a b d => exact htail b
      | need o ho a b d => exact htail b
      | ask o r h ho a b d e => exact htail b
      | wait o r h ho a b d =>
        rcases b with b | ⟨_, b, _⟩
        · exact htail b
        · exact htail b
      | more o r h t o' ho a b d => exact htail b
      | told o r h t b ho a d e f g => rw [f]; simp
      | over o Q0 pre r ho a b d e f => exact absurd ⟨m, Nat.le_refl _, a, ords_pst d⟩ hno
      | fin a b d e => exact absurd ⟨m, Nat.le_refl _, a, ords_pst d⟩ hno
    obtain ⟨a, ha, hta⟩ := C.ticks w hw m
    have hbuf := ((hone a ha (hrk a ha)).2 hta).2
    rw [(hst m a (Nat.le_refl _) ha hr).buf] at hbuf
    obtain ⟨b, hb, htb⟩ := C.carries w hw m
    have hin : ((C.at_ (b + 1)).ws w).chan.inbox ≠ [] := by
      have h := C.next b
      rw [htb] at h
      rw [show C.at_ (b + 1) = _ from h]
      simp only [if_true]
      have hs := hst m b (Nat.le_refl _) hb hr
      exact carry_inbox (hs.buf.trans hbuf) (by rw [hs.left]; exact hleft)
    obtain ⟨d, hd, htd⟩ := C.ticks w hw (b + 1)
    have h3 := ((hone d (by omega) (hrk d (by omega))).2 htd).1
    obtain ⟨l, h4⟩ := (hst (b + 1) d (by omega) hd (hrk _ (by omega))).inbox
    rw [h3] at h4
    have := congrArg List.length h4
    simp only [List.length_nil, List.length_append] at this
    have : 0 < ((C.at_ (b + 1)).ws w).chan.inbox.length := List.length_pos_iff.mpr hin
    omega
  obtain ⟨m0, hm0, i1, i2⟩ := hidle _ n (Nat.le_refl _) rfl
  -- and sends nothing any more
  have hrest : ∀ m, m0 ≤ m → ((C.at_ m).ws w).ph = .idle ∧ ords (left ((C.at_ m).ws w).chan) = [] ∧
      (outs ((C.at_ m).ws w).tr).length = (outs ((C.at_ m0).ws w).tr).length := by
    intro m hm
    induction m with
    | zero => rw [Nat.le_zero.mp hm] at i1 i2 ⊢; exact ⟨i1, i2, rfl⟩
    | succ m ih =>
      by_cases hmm : m0 = m + 1
      · rw [← hmm]; exact ⟨i1, i2, rfl⟩
      · obtain ⟨j1, j2, j3⟩ := ih (by omega)
        rcases hstep m (by omega) with ⟨h1, h2, _⟩ | ⟨ht, _⟩
        · exact ⟨h1.ph.trans j1, by rw [h1.left]; exact j2, by rw [h2]; exact j3⟩
        · rcases htick m (by omega) ht with ⟨h, _⟩ | h | ⟨_, h1, h2, _, h3⟩
          · rw [h]; exact ⟨j1, j2, j3⟩
          · simp only [haltRank, j1, j2] at h
            simp at h
          · exact ⟨h1, h3, h2.trans j3⟩
  have hlen : ∀ m, m0 ≤ m → (onTheWay w (C.at_ m).tr ((C.at_ m).ws w)).length + got w (C.at_ m).tr = (outs ((C.at_ m0).ws w).tr).length := by
    intro m hm
    have h1 := (C.joint m).got_le w
    have h2 := (hrest m hm).2.2
    simp only [onTheWay, List.length_drop]
    omega
  have hall : ∀ q m, m0 ≤ m → (onTheWay w (C.at_ m).tr ((C.at_ m).ws w)).length = q → ∃ k, m ≤ k ∧ onTheWay w (C.at_ k).tr ((C.at_ k).ws w) = [] := by
    intro q
    induction q using Nat.strongRecOn with
    | _ q ih =>
    intro m hm hq
    by_cases hne : onTheWay w (C.at_ m).tr ((C.at_ m).ws w) = []
    · exact ⟨m, Nat.le_refl _, hne⟩
    · rcases C.mail w hw m hne with h | ⟨k, hk, hlt⟩
      · exact absurd h hov
      · have h1 := hlen m hm
        have h2 := hlen k (by omega)
        obtain ⟨j, hj, h3⟩ := ih _ (by omega) k (by omega) rfl
        exact ⟨j, by omega, h3⟩
  obtain ⟨m1, hm1, hq⟩ := hall _ m0 (Nat.le_refl _) rfl
  refine ⟨m1, by omega, fun k hk => ?_⟩
  have hqk : onTheWay w (C.at_ k).tr ((C.at_ k).ws w) = [] := by
    have h1 := hlen m1 hm1
    have h2 := hlen k (by omega)
    rw [hq] at h1
    have h3 : got w (C.at_ m1).tr ≤ got w (C.at_ k).tr := (C.grow hk).sublist.countP_le
    simp only [List.length_nil] at h1
    exact List.length_eq_zero_iff.mp (by omega)
  obtain ⟨j1, j2, _⟩ := hrest k (by omega)
  have hh := (hT k (by omega)).halt
  rw [hqk] at hh
  generalize Manager.view w (C.at_ k).tr = v at hh ⊢
  cases hh with
  | sent o ho a b d => rw [b.ords] at j2; cases j2
  | need o ho a b d => rw [j1] at a; cases a
  | ask o r h ho a b d e => rw [j1] at a; cases a
  | wait o r h ho a b d => rw [j1] at a; cases a
  | more o r h t o' ho a b d => rw [j1] at a; cases a
  | told o r h t b ho a d e f g => rw [j1] at a; cases a
  | over o Q0 pre r ho a b d e f => simp at e
  | fin a b d e => rfl

theorem neat_shuts {tr : List Manager.Ev} (h : Always (Neat false) tr) : Always Shuts tr := by
  intro post e pre he
  have h1 := h post e pre he
  cases e with
  | persisStop w => exact h1.elim
  | _ => exact h1

/-- As long as a run goes on or waits: what the manager does, and whom it has told to stop. -/
theorem FullCourse.keepsGens {o : Alloc.UserOpts} (hu : PlainGens c o) {aenv : AllocEnv} (hits : ∀ k, (f k).uses (.persGens o) aenv c.sp)
    (hcl : ∀ k, (c.loop (Manager.passes f k)).2.clean = true) (hno : ∀ k, ¬ Ended (whole c f t g k).2) (k : Nat) :
    Always Shuts (whole c f t g k).1.tr ∧ Manager.Whole (whole c f t g k).1.tr ∧ Manager.hasExc (whole c f t g k).1.tr = false ∧
    ((c.loop (Manager.passes f k)).2 ≠ .running → Manager.VI c.sp (whole c f t g k).1 ∧
      (Manager.anyActive (whole c f t g k).1 || Manager.anyPersis (whole c f t g k).1) = true ∧
      .final :: (c.loop (Manager.passes f k)).1.tr <:+ (whole c f t g k).1.tr ∧ (∀ w, .persisStop w ∉ (c.loop (Manager.passes f k)).1.tr) ∧
      ∀ w ∈ c.workers, (Manager.view w (c.loop (Manager.passes f k)).1.tr).persis ≠ 0 → .persisStop w ∈ (whole c f t g k).1.tr) := by
  by_cases hrun : (c.loop (Manager.passes f k)).2 = .running
  · obtain ⟨h1, h3⟩ := neat_gens (c := c) hu.fin hu.kill hu.alt hu.act (Manager.passes_use hits k) hrun
    have hr := (Manager.mainLoop_reach (sp := c.sp) (Manager.passes f k) c.st (P := (Bundled.persGens o).P aenv c.sp) (s0 := c.st)
      (fun x hm s => Manager.uses_P (Manager.passes_use hits k x hm) s) .init).1 hrun
    change Manager.Reach c.sp ((Bundled.persGens o).P aenv c.sp) c.st .loop (c.loop (Manager.passes f k)).1 at hr
    have h6 := (hr.vi Manager.start_vi (by rw [Manager.start_tr]; rfl) Manager.start_pending rfl).1
    have h2 : whole c f t g k = ((c.loop (Manager.passes f k)).1, .running) := Manager.running_run hrun
    rw [h2]
    exact ⟨neat_shuts h1, h3, by rw [← h6.exc]; exact hr.noExc rfl rfl nofun, fun h => absurd hrun h⟩
  · have hw : (whole c f t g k).2 = .waiting := by
      have h1 := hno k
      refine Classical.byContradiction fun h2 => h1 ⟨fun h3 => ?_, h2⟩
      simp only [whole, Start.run, Manager.run, Start.loop] at h3 hrun
      generalize Manager.mainLoop c.sp (Manager.passes f k) c.st = y at h3 hrun
      obtain ⟨s, e⟩ := y
      cases e <;> first | exact hrun rfl | (dsimp only at h3; split at h3 <;> cases h3)
    have hk : rounds g k ≠ [] := by
      cases k with
      | zero => exact absurd rfl hrun
      | succ k => simp [rounds]
    obtain ⟨_, h1, h2⟩ := Manager.waiting_cases (c := c) hw
    change (whole c f t g k).1 = _ at h1
    obtain ⟨i1, i2, i3⟩ := Manager.finalPhase_waits h2
    have i4 := Manager.finalPhase_told hu.fin h2
    rw [← h1] at i1 i2 i3 i4
    have i2 := i2 hk
    have hR := (Manager.mainLoop_reach (sp := c.sp) (Manager.passes f k) c.st (P := (Bundled.persGens o).P aenv c.sp) (s0 := c.st)
      (fun x hm s => Manager.uses_P (Manager.passes_use hits k x hm) s) .init).2 hrun
    change Manager.Reach c.sp ((Bundled.persGens o).P aenv c.sp) c.st (.over (c.loop (Manager.passes f k)).2) (c.loop (Manager.passes f k)).1 at hR
    have hD := Manager.finalPhase_reach _ t (rounds g k) hR
    rw [h2] at hD
    dsimp only at hD
    rw [← h1] at hD
    have hc := hcl k
    have vD := (hD.vi Manager.start_vi (by rw [Manager.start_tr]; rfl) Manager.start_pending hc).1
    have vR := (hR.vi Manager.start_vi (by rw [Manager.start_tr]; rfl) Manager.start_pending hc).1
    obtain ⟨j1, j2⟩ := shuts_reach hu hD hc nofun i2
    refine ⟨j1, j2, by rw [← vD.exc]; exact i2, fun _ => ⟨vD, i1, i3, Reach.mainPstop (hg := hu.fin) hR hc rfl, fun w hw hp => i4 w ?_⟩⟩
    have hids : w ∈ Manager.ids (c.loop (Manager.passes f k)).1 := by rw [hR.micros.ids, Manager.start_ids]; exact hw
    obtain ⟨j, hj, rfl⟩ := (Manager.mem_ids vR.tab).mp hids
    have h3 := (vR.agree j _ (List.getElem?_eq_getElem hj)).persis
    rw [h3] at hp
    refine List.mem_map.mpr ⟨(c.loop (Manager.passes f k)).1.W[j], List.mem_filter.mpr ⟨List.getElem_mem hj, decide_eq_true hp⟩, ?_⟩
    exact Manager.id_at vR.tab (List.getElem?_eq_getElem hj)

theorem FullCourse.endsGens (C : FullCourse env c f t g) {o : Alloc.UserOpts} (hu : PlainGens c o) {aenv : AllocEnv}
    (hits : ∀ k, (f k).uses (.persGens o) aenv c.sp) (hF : ∀ w, Simple (env.F w)) (hA : ∀ w, Leaving env (env.F w))
    (hcl : ∀ k, (c.loop (Manager.passes f k)).2.clean = true) (hend : ∃ k, (c.loop (Manager.passes f k)).2 ≠ .running) :
    ∃ k, Ended (whole c f t g k).2 := by
  refine Classical.byContradiction fun hne => ?_
  have hno : ∀ k, ¬ Ended (whole c f t g k).2 := fun k h => hne ⟨k, h⟩
  have hK := FullCourse.keepsGens (t := t) (g := g) hu hits hcl hno
  have hsh : ∀ n, Always Shuts (C.at_ n).tr := fun n => by
    obtain ⟨k, hk⟩ := C.inside n
    exact always_suffix (hK k).1 hk
  have hfr : ∀ n w, Framed (sentTo w (C.at_ n).tr) := fun n w => by
    obtain ⟨k, hk⟩ := C.inside n
    exact framed_suffix (hK k).2.1 hk w
  have hx : ∀ n, Manager.hasExc (C.at_ n).tr = false := fun n => by
    obtain ⟨k, l, hk⟩ := C.inside n
    have := (hK k).2.2.1
    rw [← hk, Manager.hasExc_append, Bool.or_eq_false_iff] at this
    exact this.2
  have hcs : ∀ n w, Free env w (C.at_ n).tr ((C.at_ n).ws w) ∨ Told env w (C.at_ n).tr ((C.at_ n).ws w) := fun n w =>
    (C.joint n).closing hF hA (hsh n) (hfr n) (hx n) w
  obtain ⟨K, hKend⟩ := hend
  obtain ⟨_, _, k3, k4, k5⟩ := (hK K).2.2.2 hKend
  obtain ⟨nK, hnK⟩ := C.passes K
  obtain ⟨n0, hle, hn0⟩ := C.through (n := nK) (by rw [hnK]; exact k3)
  have hfin : Manager.hasFinal (C.at_ n0).tr = true := by rw [hn0]; rfl
  -- no orders any more
  have hord : ∀ n m l, n0 ≤ n → (C.at_ m).tr = l ++ (C.at_ n).tr → ∀ to key wk, .order to key wk ∉ l := by
    intro n m l hn hl to key wk hm
    obtain ⟨l1, l2, rfl⟩ := List.append_of_mem hm
    have h1 : Shuts (l2 ++ (C.at_ n).tr) (.order to key wk) := hsh m l1 _ _ (by rw [hl]; simp)
    have h1 : Neat false (l2 ++ (C.at_ n).tr) (.order to key wk) := h1
    obtain ⟨l3, hl3⟩ := C.grow hn
    have h2 := h1.1
    rw [← hl3, Manager.hasFinal_append, Manager.hasFinal_append, hfin, Bool.or_true, Bool.or_true] at h2
    cases h2
  have hview0 : ∀ w, Manager.view w (C.at_ n0).tr = Manager.view w (c.loop (Manager.passes f K)).1.tr := fun w => by rw [hn0]; rfl
  have hone : ∀ w ∈ c.workers, ∃ m, n0 ≤ m ∧ ∀ k, m ≤ k → Manager.view w (C.at_ k).tr = {} := by
    intro w hw
    by_cases hp : (Manager.view w (C.at_ n0).tr).persis = 0
    · -- no persistent function: as in the main loop
      have hfree : ∀ m, n0 ≤ m → .persisStop w ∉ (C.at_ m).tr ∧ (Manager.view w (C.at_ m).tr).persis = 0 ∧
          ∀ l, (C.at_ m).tr = l ++ (C.at_ n0).tr → .recv w .err ∉ l := by
        have h0 : .persisStop w ∉ (C.at_ n0).tr := by
          rw [hn0]
          intro h
          rcases List.mem_cons.mp h with h | h
          · cases h
          · exact k4 w h
        have hl0 : ∀ l, (C.at_ n0).tr = l ++ (C.at_ n0).tr → .recv w .err ∉ l := fun l hl => by
          have : l = [] := by
            have := congrArg List.length hl
            rw [List.length_append] at this
            exact List.length_eq_zero_iff.mp (by omega)
          rw [this]; simp
        intro m hm
        induction m with
        | zero => rw [Nat.le_zero.mp hm] at h0 hp hl0 ⊢; exact ⟨h0, hp, hl0⟩
        | succ m ih =>
          by_cases hmm : n0 = m + 1
          · rw [← hmm]; exact ⟨h0, hp, hl0⟩
          · obtain ⟨j1, j2, j3⟩ := ih (by omega)
            have h := C.next m
            cases ht : C.turn m with
            | carry v => rw [ht] at h; rw [show C.at_ (m + 1) = _ from h]; exact ⟨j1, j2, j3⟩
            | tick v => rw [ht] at h; rw [show C.at_ (m + 1) = _ from h]; exact ⟨j1, j2, j3⟩
            | wait => rw [ht] at h; rw [show C.at_ (m + 1) = _ from h]; exact ⟨j1, j2, j3⟩
            | man e =>
              rw [ht] at h
              have hs := hsh (m + 1)
              have ho := hord m (m + 1) [e] (by omega) (by rw [h.2]; rfl)
              rw [h.2] at hs ⊢
              dsimp only at hs ⊢
              have hs := (Manager.always_cons.mp hs).1
              have hew : e ≠ .persisStop w := by
                rintro rfl
                exact hs.2.1 j2
              have hI := (hcs m w).resolve_right fun hI => j1 hI.told
              obtain ⟨f1, f2, f3⟩ := hI.man (fun msg he hm => by subst he; exact h.1 hm) hs hew
              refine ⟨f1.free, f3 (fun to key wk he => ho to key wk (by rw [he]; exact List.mem_singleton.mpr rfl)) j2, fun l hl => ?_⟩
              obtain ⟨l', hl'⟩ := C.grow (n := n0) (m := m) (by omega)
              have hl2 : l = e :: l' := by
                rw [← hl', ← List.cons_append] at hl
                exact (List.append_cancel_right hl).symm
              rw [hl2]
              intro hm
              rcases List.mem_cons.mp hm with h | h
              · exact f2 h.symm
              · exact j3 l' hl'.symm h
      have hI : ∀ m, n0 ≤ m → Free env w (C.at_ m).tr ((C.at_ m).ws w) := fun m hm => (hcs m w).resolve_right fun hI => (hfree m hm).1 hI.told
      have hnone : ∃ m, n0 ≤ m ∧ Manager.owes w (C.at_ m).tr = none := by
        by_cases ho : Manager.owes w (C.at_ n0).tr = none
        · exact ⟨n0, Nat.le_refl _, ho⟩
        · obtain ⟨m, hm, hlt⟩ := C.answers (K := false) (hF w) (fun _ => (hA w).toAsking) (fun m hm => (hI m hm).inv)
            (fun m hm x hx i hi => absurd hi (shuts_sent w (hsh m) (hfree m hm).1 x hx i)) (fun m _ => hfr m w)
            (fun k => (hK k).2.1) (fun ⟨k, hk⟩ => hno k hk) hw ho
          obtain ⟨l, hl⟩ := C.grow hm
          refine ⟨m, hm, ?_⟩
          rw [← hl]
          refine owes_got ?_ (hord n0 m l (Nat.le_refl _) hl.symm)
          rw [← hl, got, got, List.countP_append] at hlt
          have hpos : 0 < l.countP (isGot w) := by omega
          obtain ⟨e, he, hge⟩ := List.countP_pos_iff.mp hpos
          cases e with
          | recv v msg =>
            simp only [isGot, Bool.and_eq_true, decide_eq_true_eq] at hge
            obtain ⟨rfl, hge⟩ := hge
            cases msg with
            | data d => exact ⟨d, he⟩
            | err => exact absurd he ((hfree m hm).2.2 l hl.symm)
            | _ => cases hge
          | _ => cases hge
      obtain ⟨m, hm, ho⟩ := hnone
      refine ⟨m, hm, fun k hk => ?_⟩
      obtain ⟨l, hl⟩ := C.grow hk
      have h1 : Manager.owes w (C.at_ k).tr = none := by rw [← hl]; exact owes_keep ho (hord m k l hm hl.symm)
      rw [(hI k (by omega)).view, h1, (hfree k (by omega)).2.1]
      rfl
    · -- a persistent generator: told to stop
      have hst : .persisStop w ∈ (C.at_ nK).tr := by rw [hnK]; exact k5 w hw (by rw [← hview0]; exact hp)
      have hT : ∀ m, nK ≤ m → Told env w (C.at_ m).tr ((C.at_ m).ws w) := fun m hm =>
        (hcs m w).resolve_left fun hI => hI.free ((C.grow hm).subset hst)
      obtain ⟨m, hm, h1⟩ := C.leaves (hA w) hT (fun m _ => hsh m) (fun m _ => hfr m w) (fun ⟨k, hk⟩ => hno k hk) hw
      exact ⟨m, by omega, h1⟩
  have hall : ∀ vs : List Nat, (∀ w ∈ vs, w ∈ c.workers) → ∃ m, n0 ≤ m ∧ ∀ w ∈ vs, ∀ k, m ≤ k → Manager.view w (C.at_ k).tr = {} := by
    intro vs
    induction vs with
    | nil => exact fun _ => ⟨n0, Nat.le_refl _, nofun⟩
    | cons v vs ih =>
      intro hvs
      obtain ⟨n, hn, h1⟩ := ih fun w hw => hvs w (List.mem_cons_of_mem _ hw)
      obtain ⟨m, hm, h2⟩ := hone v (hvs v List.mem_cons_self)
      refine ⟨max n m, by omega, fun w hw k hk => ?_⟩
      rcases List.mem_cons.mp hw with rfl | hw
      · exact h2 k (by omega)
      · exact h1 w hw k (by omega)
  obtain ⟨n, hn, hnone⟩ := hall c.workers fun _ h => h
  obtain ⟨m, k, hm, hk⟩ := C.later n
  have hkend : (c.loop (Manager.passes f k)).2 ≠ .running := by
    intro hrun
    have h1 : whole c f t g k = ((c.loop (Manager.passes f k)).1, .running) := Manager.running_run hrun
    obtain ⟨p, hp, hr⟩ := Manager.over_main (c := c) (Manager.passes_use hits k)
    have h2 := hr.hasFinal (by rw [Manager.start_tr]; rfl)
    rw [hp] at h2
    have h3 := suffix_hasFinal (C.grow (n := n0) (m := m) (by omega)) (by rw [hk, h1]; exact h2)
    rw [hfin] at h3
    cases h3
  obtain ⟨vi, hact, _⟩ := (hK k).2.2.2 hkend
  have hmem : ∀ x ∈ (whole c f t g k).1.W, x.active = 0 ∧ x.persis = 0 := by
    intro x hx
    obtain ⟨j, hj, rfl⟩ := List.getElem_of_mem hx
    have ha := vi.agree j _ (List.getElem?_eq_getElem hj)
    rw [← hk] at ha
    have hw : Manager.idAt c.sp j ∈ c.workers := by
      obtain ⟨p, _, hr⟩ := Manager.run_reach (sp := c.sp) (P := fun _ _ => True) (s0 := c.st) (Manager.passes f k) t (rounds g k) (fun _ _ _ => trivial)
      rw [← Manager.start_ids, ← hr.micros.ids]
      exact (Manager.mem_ids vi.tab).mpr ⟨j, hj, rfl⟩
    have hb := ha.busy
    have hp := ha.persis
    rw [hnone _ hw m hm] at hb hp
    exact ⟨by simpa using hb.symm, hp.symm⟩
  rw [Bool.or_eq_true] at hact
  rcases hact with h | h
  · simp only [Manager.anyActive, List.any_eq_true, decide_eq_true_eq] at h
    obtain ⟨x, hx, h⟩ := h
    exact h (hmem x hx).1
  · simp only [Manager.anyPersis, List.any_eq_true, decide_eq_true_eq] at h
    obtain ⟨x, hx, h⟩ := h
    exact h (hmem x hx).2

/-- Once the main loop of a run with persistent generators and `only_persistent_gens` has ended, the shutdown comes to its end too: every
generator is told to stop, and ends; its last message is received; `run` returns or raises an error.  Partial: for the usual settings,
generators that answer when they are asked and end when they are told to stop, and main loops that did not end with an error that leaves
the manager's table behind (`clean`; see `C17`). -/
theorem C75_gens_returns_partial (C : FullCourse env c f t g) (o : Alloc.UserOpts) (hu : PlainGens c o) (aenv : AllocEnv)
    (hits : ∀ k, (f k).uses (.persGens o) aenv c.sp) (hF : ∀ w, Simple (env.F w)) (hA : ∀ w, Leaving env (env.F w))
    (hcl : ∀ k, (c.loop (Manager.passes f k)).2.clean = true) (hend : ∃ k, (c.loop (Manager.passes f k)).2 ≠ .running) :
    ∃ k, Ended (whole c f t g k).2 :=
  FullCourse.endsGens C hu hits hF hA hcl hend

/-- A whole run with persistent generators, `only_persistent_gens` and `sim_max` comes to its end, the shutdown included.  Partial: as
`C75_gens_returns_partial` and `C70_gens_ends_partial`. -/
theorem C75_gens_ends_partial (C : FullCourse env c f t g) (o : Alloc.UserOpts) (hu : PlainGens c o) (aenv : AllocEnv)
    (hits : ∀ k, (f k).uses (.persGens o) aenv c.sp) (hF : ∀ w, Simple (env.F w)) (hA : ∀ w, Leaving env (env.F w))
    (hcl : ∀ k, (c.loop (Manager.passes f k)).2.clean = true) (m : Nat) (hm : c.sp.simMax = some m) (hstd : c.Std)
    (hok : ∀ k, (c.loop (Manager.passes f k)).2 = .running → c.Protected (c.loop (Manager.passes f k)).1.tr)
    (hclock : ∀ k, (f k).e2 ≤ (f (k + 1)).e1) : ∃ k, Ended (whole c f t g k).2 := by
  refine C75_gens_returns_partial C o hu aenv hits hF hA hcl (Classical.byContradiction fun hn => ?_)
  have hrun : ∀ k, (c.loop (Manager.passes f k)).2 = .running := fun k => Classical.byContradiction fun h => hn ⟨k, h⟩
  exact hn (C70_gens_ends_partial (FullCourse.course C hrun) o hu aenv hits hF (fun w => (hA w).toAsking) m hm hstd hok hclock)

end Verif.System
