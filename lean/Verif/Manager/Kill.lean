import Verif.Manager.Window
/-
What the manager knows when it looks for cancelled simulations.
-/
namespace Verif.Manager
open Verif.History Verif.Res Verif.Sched Verif.Alloc

variable {P : St → Reply → Prop}

/-- Arrays that keep the numbering of the rows: simulation results have no `sim_id`, arrays of generators name each
field once and contain no negative `sim_id`. -/
def KeepsIds (tr : List Ev) : Prop :=
  ∀ w d r, .recv w (.data d) ∈ tr → d.out = .arr r →
    (d.isSim = true → Field.simId ∉ r.fields) ∧
    (d.isGen = true → r.fields.Nodup ∧ (Field.simId ∈ r.fields → ∀ x ∈ r.rows, ∃ n : Nat, x .simId = .s n))

/-- Orders for evaluation name rows that exist. -/
def VisibleOrders (h0 : Hist) (tr : List Ev) : Prop :=
  Always (onOrder fun pre _ _ wk => wk.tag = EVAL_SIM → ∀ i ∈ wk.rows, i < (histAt h0 pre).index) tr

/-- Prepended rows are numbered in order, and are either evaluated or neither started nor killed. -/
structure Start.CleanH0 (c : Start) : Prop where
  room : 0 < c.L ∨ c.H0.rows = []
  ids : Field.simId ∈ c.H0.fields → NumberedFromZero c.H0.rows
  done : ∀ r ∈ c.hist.rows, r.flag .simEnded = true ∨ (r .simStarted = .s 0 ∧ r .killSent = .s 0)

/-- The rows for which a kill signal was sent, newest first. -/
def killsOf (tr : List Ev) : List Nat := tr.filterMap fun | .kill _ i => some i | _ => none

/-- The conditions under which kill signals are studied. -/
structure KillOk (c : Start) (tr : List Ev) : Prop where
  std : c.Std
  h0 : c.CleanH0
  prot : c.Protected tr
  ids : KeepsIds tr
  orders : OrdersOk c.sp.gom tr
  vis : VisibleOrders c.hist tr

theorem KeepsIds.suffix {l tr : List Ev} (h : KeepsIds (l ++ tr)) : KeepsIds tr :=
  fun w d r hm => h w d r (List.mem_append_right _ hm)

theorem OrdersOk.suffix {gom : Bool} {l tr : List Ev} (h : OrdersOk gom (l ++ tr)) : OrdersOk gom tr :=
  fun to key wk hm => h to key wk (List.mem_append_right _ hm)

theorem Always.suffix {G : List Ev → Ev → Prop} {l tr : List Ev} (h : Always G (l ++ tr)) : Always G tr :=
  fun post e pre he => h (l ++ post) e pre (by rw [he]; simp)

theorem KillOk.suffix {c : Start} {l tr : List Ev} (h : KillOk c (l ++ tr)) : KillOk c tr :=
  ⟨h.std, h.h0, h.prot.suffix, h.ids.suffix, h.orders.suffix, Always.suffix h.vis⟩

/-- The updates keep the numbering. -/
theorem start_idSafe {c : Start} {p : Ph} {s : St} (h : Reach c.sp P c.st p s) (hi : KeepsIds s.tr) :
    ∀ o, .op o ∈ s.tr → IdSafe o := by
  intro o ho
  obtain ⟨post, pre, he⟩ := List.append_of_mem ho
  have h1 := h.recF start_tr post (.op o) pre he
  by_cases hr : isResult o = true
  · obtain ⟨w, m, pre', rfl, h2, _⟩ := h1 hr
    cases m with
    | data d =>
      have hm : Ev.recv w (.data d) ∈ s.tr := by rw [he]; simp
      cases o with
      | simReturn rows r t k =>
        cases r with
        | none => trivial
        | some r =>
          obtain ⟨h3, _, h4⟩ := h2
          refine (hi w d r hm ?_).1 h3
          cases ho : d.out <;> simp [ho, Out.array] at h4
          rw [h4]
      | genReturn w' r ts t =>
        obtain ⟨h3, _, h4⟩ := h2
        refine (hi w d r hm ?_).2 h3
        cases ho : d.out <;> simp [ho, Out.array] at h4
        rw [h4]
      | _ => trivial
    | _ => exact absurd h2 (by simp [Records])
  · cases o <;> simp [isResult] at hr <;> trivial

/-- In the main loop the visible rows have their number as `sim_id`. -/
theorem start_vis {c : Start} {p : Ph} {s : St} (h : Reach c.sp P c.st p s) (hp : p.fine = true) (hc : c.Std)
    (h0 : c.CleanH0) (hi : KeepsIds s.tr) : VisInv s.hist := by
  have hf := h.fine start_tr hp
  have H0 : IdInv c.hist := idInv_init c.cols c.L c.H0 c.safe hc.has h0.room (fun h i r hr => h0.ids h i r hr)
  have h1 := (run_id H0 (opsOf s.tr) (fun o ho => by
    refine start_idSafe h hi o ?_
    simp only [opsOf, List.mem_filterMap, List.mem_reverse] at ho
    obtain ⟨e, he, h2⟩ := ho
    cases e with
    | op o' => simp only [Option.some.injEq] at h2; rw [← h2]; exact he
    | _ => simp at h2)).1
  simp only [Fine] at hf
  have hs : c.st.hist = c.hist := rfl
  rw [hs] at hf
  rw [hf] at h1
  exact h1

/-- How a flag of a row that can be set only by one kind of update is set. -/
theorem flag_set {c : Start} (hc : c.Std) {tr : List Ev} (hk : OpsOk c tr) (g : Field)
    (hg : g = .simStarted ∨ g = .killSent) {i : Nat} {v : Val} (h0 : ∀ x, cell c.hist.rows i g = some x → x = .s 0)
    (hv : cell (histAt c.hist tr).rows i g = some v) (hne : v ≠ .s 0) :
    ∃ post pre o, tr = post ++ .op o :: pre ∧ i < (histAt c.hist pre).rows.length ∧
      ((g = .simStarted ∧ ∃ rows w t k, o = .giveSim rows w t k ∧ i ∈ rows) ∨ (g = .killSent ∧ ∃ rows, o = .markKill rows ∧ i ∈ rows)) := by
  have hp : g ∈ protectedFields := by rcases hg with rfl | rfl <;> simp [protectedFields]
  induction tr generalizing v with
  | nil => exact absurd (h0 v hv) hne
  | cons e tr ih =>
    have up : (∃ post pre o, tr = post ++ .op o :: pre ∧ i < (histAt c.hist pre).rows.length ∧
      ((g = .simStarted ∧ ∃ rows w t k, o = .giveSim rows w t k ∧ i ∈ rows) ∨ (g = .killSent ∧ ∃ rows, o = .markKill rows ∧ i ∈ rows))) →
      ∃ post pre o, e :: tr = post ++ .op o :: pre ∧ i < (histAt c.hist pre).rows.length ∧
      ((g = .simStarted ∧ ∃ rows w t k, o = .giveSim rows w t k ∧ i ∈ rows) ∨ (g = .killSent ∧ ∃ rows, o = .markKill rows ∧ i ∈ rows)) := by
      rintro ⟨post, pre, o, rfl, h1⟩
      exact ⟨e :: post, pre, o, rfl, h1⟩
    have hk' : OpsOk c tr := OpsOk.suffix (l := [e]) hk
    by_cases ho : ∃ o, e = .op o
    · obtain ⟨o, rfl⟩ := ho
      rcases Nat.lt_or_ge i (histAt c.hist tr).rows.length with hlt | hge
      · rcases histAt_step hc hk g hp i hlt with h1 | h1
        · exact up (ih hk' (by rw [← h1]; exact hv) hne)
        · refine ⟨[], tr, o, rfl, hlt, ?_⟩
          cases o with
          | simReturn rows d t k =>
            obtain ⟨_, h2 | h2⟩ := h1 <;> rcases hg with rfl | rfl <;> exact absurd h2.1 (by simp)
          | giveSim rows w t k =>
            rcases hg with rfl | rfl
            · exact .inl ⟨rfl, rows, w, t, k, rfl, h1.1⟩
            · obtain ⟨_, h2 | h2 | h2⟩ := h1 <;> exact absurd h2.1 (by simp)
          | giveGen rows t =>
            obtain ⟨_, h2 | h2⟩ := h1 <;> rcases hg with rfl | rfl <;> exact absurd h2.1 (by simp)
          | genReturn w d ts t =>
            obtain ⟨_, _, h2 | h2 | h2⟩ := h1 <;> rcases hg with rfl | rfl <;> exact absurd h2.1 (by simp)
          | requestCancel rows => exact h1.elim
          | markKill rows =>
            rcases hg with rfl | rfl
            · exact absurd h1.2.1 (by simp)
            · exact .inr ⟨rfl, rows, rfl, h1.1⟩
      · rw [histAt_op] at hv
        have hlt : i < (apply (histAt c.hist tr) o).1.rows.length := by
          rcases Nat.lt_or_ge i (apply (histAt c.hist tr) o).1.rows.length with h | h
          · exact h
          · simp only [cell] at hv; rw [List.getElem?_eq_none h] at hv; simp at hv
        have := apply_new_flag (histAt_lib hc tr) o (by
          rcases hk o (by simp) with h | h
          · left; rw [histAt_safe]; exact h
          · exact .inr h) g (hg.elim .inl (fun h => .inr (.inr (.inl h)))) i hge hlt
        rw [this] at hv
        exact absurd (by simpa using hv.symm) hne
    · rw [histAt_skip _ _ (fun o hh => ho ⟨o, hh⟩)] at hv
      exact up (ih hk' hv hne)

/-- An evaluated row stays evaluated. -/
theorem ended_keep {c : Start} (hc : c.Std) {l tr : List Ev} (hk : OpsOk c (l ++ tr)) {i : Nat} (h : Ended (histAt c.hist tr) i) :
    Ended (histAt c.hist (l ++ tr)) i := by
  induction l with
  | nil => exact h
  | cons e l ih =>
    have ih := ih (OpsOk.suffix (l := [e]) hk)
    by_cases ho : ∃ o, e = .op o
    · obtain ⟨o, rfl⟩ := ho
      obtain ⟨v, h1, h2⟩ := ended_cell.mp ih
      rcases histAt_step (tr := l ++ tr) hc hk .simEnded (by simp [protectedFields]) i (cell_lt h1) with h3 | h3
      · rw [List.cons_append]
        exact ended_cell.mpr ⟨v, by rw [h3]; exact h1, h2⟩
      · rw [List.cons_append, histAt_op]
        refine ended_cell.mpr ⟨.s 1, ?_, by simp⟩
        cases o with
        | simReturn inds d t k =>
          obtain ⟨_, h4 | h4⟩ := h3
          · exact h4.2
          · exact absurd h4.1 (by simp)
        | giveSim _ _ _ _ => obtain ⟨_, h6 | h6 | h6⟩ := h3 <;> exact absurd h6.1 (by simp)
        | giveGen _ _ => obtain ⟨_, h6 | h6⟩ := h3 <;> exact absurd h6.1 (by simp)
        | genReturn _ _ _ _ => obtain ⟨_, _, h6 | h6 | h6⟩ := h3 <;> exact absurd h6.1 (by simp)
        | requestCancel _ => exact h3.elim
        | markKill _ => exact absurd h3.2.1 (by simp)
    · rw [List.cons_append, histAt_skip _ _ (fun o hh => ho ⟨o, hh⟩)]; exact ih

theorem histAt_index (h0 : Hist) (l tr : List Ev) : (histAt h0 tr).index ≤ (histAt h0 (l ++ tr)).index := by
  induction l with
  | nil => exact Nat.le_refl _
  | cons e l ih =>
    by_cases h : ∃ o, e = .op o
    · obtain ⟨o, rfl⟩ := h
      rw [List.cons_append, histAt_op]; exact Nat.le_trans ih (apply_struct _ o).2.2.1
    · rw [List.cons_append, histAt_skip _ _ (fun o ho => h ⟨o, ho⟩)]; exact ih

/-- A row that is not evaluated was at the beginning neither started nor killed. -/
theorem clean_start {c : Start} (hc : c.Std) (h0 : c.CleanH0) {tr : List Ev} (hk : OpsOk c tr) {i : Nat} (he : ¬ Ended (histAt c.hist tr) i) :
    (∀ x, cell c.hist.rows i .simStarted = some x → x = .s 0) ∧ (∀ x, cell c.hist.rows i .killSent = some x → x = .s 0) := by
  have key : ∀ r, c.hist.rows[i]? = some r → r .simStarted = .s 0 ∧ r .killSent = .s 0 := by
    intro r hr
    rcases h0.done r (List.mem_of_getElem? hr) with h | h
    · refine absurd ?_ he
      have := ended_keep (l := tr) (tr := []) (i := i) hc (by simpa using hk) ⟨r, hr, h⟩
      simpa using this
    · exact h
  refine ⟨fun x hx => ?_, fun x hx => ?_⟩
  · simp only [cell, Option.map_eq_some_iff] at hx
    obtain ⟨r, h1, rfl⟩ := hx
    exact (key r h1).1
  · simp only [cell, Option.map_eq_some_iff] at hx
    obtain ⟨r, h1, rfl⟩ := hx
    exact (key r h1).2

/-- A row under evaluation: it is visible, and its `sim_worker` was sent it. -/
theorem running_row {c : Start} {p : Ph} {s : St} (h : Reach c.sp P c.st p s) (hk : KillOk c s.tr)
    {i : Nat} {r : Row} (hr : s.hist.rows[i]? = some r) (hs : r.flag .simStarted = true) (he : r.flag .simEnded = false) :
    i < s.hist.index ∧
      ∃ key q : Nat, wPos c.sp.gom c.st.W.length key = some q ∧ idAt c.sp q = key ∧ SentTo s.tr key key i ∧ r .simWorker = .s key := by
  have hops := start_kept h hk.prot
  have hh := start_histAt h
  have hg := h.givF (h0 := c.hist) start_tr rfl
  have hcell : ∀ g, cell (histAt c.hist s.tr).rows i g = some (r g) := fun g => by rw [← hh]; simp [cell, hr]
  have hne : ¬ Ended (histAt c.hist s.tr) i := by
    rintro ⟨r', h1, h2⟩
    rw [← hh, hr] at h1
    cases h1
    rw [he] at h2; simp at h2
  obtain ⟨post, pre, o, e1, hlt, h1 | h1⟩ := flag_set hk.std hops .simStarted (.inl rfl) (clean_start hk.std hk.h0 hops hne).1 (hcell _)
    (by simpa [Row.flag] using hs)
  · obtain ⟨_, rows, w, t, k, rfl, hi⟩ := h1
    obtain ⟨q, wk, l, pre', f1, f2, f3, f4, f5, f6⟩ := hg post _ pre e1
    rw [e1] at hops
    obtain ⟨_, rows', key', t', k', g2, g3, g4⟩ := given_cells hk.std hops hi f6
    refine ⟨?_, ?_⟩
    · have hv := hk.vis (post ++ .op (.giveSim rows w t k) :: l) (.order (idAt c.sp q) w wk) pre' (by rw [e1, f1]; simp) f4 i (by rw [f5]; exact hi)
      rw [hh, e1, f1]
      have := histAt_index c.hist (post ++ .op (.giveSim rows w t k) :: l ++ [.order (idAt c.sp q) w wk]) pre'
      simp only [List.append_assoc, List.cons_append, List.nil_append] at this
      omega
    · rw [← e1] at g2 g4
      obtain ⟨q', w1, w2⟩ := giveSim_sent hg g2 g3
      have hid := idAt_wPos (hk.orders.key w2) w1
      rw [hid] at w2
      rw [hcell] at g4
      exact ⟨key', q', w1, hid, w2, by simpa using g4⟩
  · exact absurd h1.1 (by simp)

/-- The rows that are looked at and to be killed. -/
theorem mem_killRows {h : Hist} {i : Nat} : i ∈ killRows h ↔ i ∈ killRange h ∧ ∃ r, h.rows[i]? = some r ∧ toKill r = true := by
  simp only [killRows, List.mem_filter]
  refine and_congr_right (fun _ => ?_)
  cases h.rows[i]? <;> simp

theorem mem_killRange {h : Hist} {i : Nat} (hw : WinOk h) : i ∈ killRange h ↔ h.lastEnded < i ∧ (i : Int) ≤ h.lastStarted := by
  simp only [killRange, List.mem_map, mem_intRange]
  constructor
  · rintro ⟨x, ⟨h1, h2⟩, rfl⟩
    have := hw.1
    omega
  · rintro ⟨h1, h2⟩
    exact ⟨i, by omega, by omega⟩

theorem killRange_nodup {h : Hist} (hw : WinOk h) : (killRange h).Nodup := by
  have h1 := nodup_intRange (h.lastEnded + 1) h.lastStarted
  simp only [killRange]
  rw [List.nodup_iff_pairwise_ne] at h1 ⊢
  rw [List.pairwise_map]
  refine h1.imp_of_mem (fun {a b} ha hb hab => ?_)
  rw [mem_intRange] at ha hb
  have := hw.1
  omega

theorem killRows_nodup {h : Hist} (hw : WinOk h) : (killRows h).Nodup := (killRange_nodup hw).filter _

theorem start_win {c : Start} (tr : List Ev) (h0 : WinOk c.hist) : WinOk (histAt c.hist tr) := histAt_inv (I := WinOk) (fun _ o h => apply_winOk h o) h0 tr

theorem init_win (c : Start) : WinOk c.hist := by
  have h1 : c.hist.lastEnded = -1 := rfl
  have h2 : c.hist.lastStarted = -1 := rfl
  refine ⟨by omega, by omega⟩

/-- The events of one search for cancelled rows, oldest first. -/
def passEvs (h : Hist) (ks : List Nat) : List Nat → List Ev
  | [] => []
  | i :: l => .kill (workerOf h i) i :: .op (.markKill ks) :: passEvs h ks l

theorem killLoop_eq (sp : Specs) (h : Hist) (ks : List Nat) (l : List Nat) (s : St)
    (hl : ∀ i ∈ l, ∃ q, wPos sp.gom s.W.length (workerOf h i) = some q ∧ idAt sp q = workerOf h i) :
    (killLoop sp ks (l.map fun i => (i, workerOf h i)) s).2 = none ∧
    (killLoop sp ks (l.map fun i => (i, workerOf h i)) s).1.tr = (passEvs h ks l).reverse ++ s.tr := by
  induction l generalizing s with
  | nil => exact ⟨rfl, rfl⟩
  | cons i l ih =>
    obtain ⟨q, h1, h2⟩ := hl i List.mem_cons_self
    simp only [List.map_cons, killLoop, h1]
    have h3 : ∀ f, andThen (doOp (emit s (.kill (idAt sp q) i)) (.markKill ks)) f = f (doOp (emit s (.kill (idAt sp q) i)) (.markKill ks)).1 := fun _ => rfl
    rw [h3]
    obtain ⟨g1, g2⟩ := ih (doOp (emit s (.kill (idAt sp q) i)) (.markKill ks)).1 (fun j hj => hl j (List.mem_cons_of_mem _ hj))
    refine ⟨g1, ?_⟩
    rw [g2, h2]
    simp [passEvs, doOp, emit]

/-- The search goes through, and its events. -/
theorem killCancelled_eq {c : Start} {s : St} (h : Reach c.sp P c.st .kill s) (hk : KillOk c s.tr) :
    (killCancelled c.sp s).2 = none ∧
    (killCancelled c.sp s).1.tr = (if c.sp.kill then (passEvs s.hist (killRows s.hist) (killRows s.hist)).reverse else []) ++ s.tr := by
  simp only [killCancelled]
  cases hkill : c.sp.kill with
  | false => exact ⟨rfl, rfl⟩
  | true =>
    simp only [if_true]
    have hw : WinOk s.hist := by rw [start_histAt h]; exact start_win _ (init_win c)
    have hv := start_vis h rfl hk.std hk.h0 hk.ids
    have hrow : ∀ i ∈ killRows s.hist, ∃ r, s.hist.rows[i]? = some r ∧ i < s.hist.index ∧
        ∃ key q : Nat, wPos c.sp.gom c.st.W.length key = some q ∧ idAt c.sp q = key ∧ r .simWorker = .s key := by
      intro i hi
      obtain ⟨_, r, h1, h2⟩ := mem_killRows.mp hi
      simp only [toKill, Bool.and_eq_true, Bool.not_eq_true'] at h2
      obtain ⟨g1, key, q, g2, g3, _, g4⟩ := running_row h hk h1 h2.1.1.1 h2.1.2
      exact ⟨r, h1, g1, key, q, g2, g3, g4⟩
    rw [if_neg]
    · have hids : (killRows s.hist).filterMap (fun i => (s.hist.rows[i]?).map (·.sid)) = (killRows s.hist).map (fun i : Nat => (i : Int)) := by
        generalize killRows s.hist = ks at hrow
        induction ks with
        | nil => rfl
        | cons i ks ih =>
          obtain ⟨r, h1, h2, _⟩ := hrow i List.mem_cons_self
          have h3 := hv.vis i h2
          simp only [cell, h1, Option.map_some, Option.some.injEq] at h3
          have h4 : r.sid = i := by simp [Row.sid, h3]
          simp only [List.filterMap_cons, h1, Option.map_some, List.map_cons, h4, List.cons.injEq, true_and]
          exact ih (fun j hj => hrow j (List.mem_cons_of_mem _ hj))
      have hres : resolveAll s.hist.rows.length ((killRows s.hist).map (fun i : Nat => (i : Int))) = some (killRows s.hist) := by
        rw [resolveAll_nonneg]
        · simp [List.map_map, Function.comp_def]
        · intro x hx
          simp only [List.mem_map] at hx
          obtain ⟨i, hi, rfl⟩ := hx
          obtain ⟨r, h1, h2, _⟩ := hrow i hi
          have := hv.room
          omega
      rw [hids, hres]
      refine killLoop_eq c.sp s.hist _ _ s (fun i hi => ?_)
      obtain ⟨r, h1, _, key, q, h2, h3, h4⟩ := hrow i hi
      have hwk : workerOf s.hist i = key := by simp [workerOf, h1, Row.worker, h4]
      rw [hwk, show s.W.length = c.st.W.length from h.micros.length]
      exact ⟨q, h2, h3⟩
    · simp only [List.any_eq_true, decide_eq_true_eq, not_exists, not_and]
      intro i hi
      have := (mem_killRange hw).mp hi
      have := hw.2
      omega

end Verif.Manager
