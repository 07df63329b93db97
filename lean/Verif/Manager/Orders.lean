import Verif.Manager.View
/-
What the functions that send work orders do, case by case.
-/
namespace Verif.Manager
open Verif.History Verif.Res Verif.Sched Verif.Alloc

variable {sp : Specs}

theorem setResources_cases (s : St) (wk : Work) (w : Nat) :
    SameTab s (setResources sp s wk w).1 ∧ (setResources sp s wk w).1.hist = s.hist ∧
    (((setResources sp s wk w).2.2 = none → ∃ l0, (setResources sp s wk w).1.tr = l0 ++ s.tr ∧
        (l0 = [] ∨ ∃ team, l0 = [.assign w team] ∧ (setResources sp s wk w).2.1.team = some team)) ∧
     ((setResources sp s wk w).2.2 ≠ none → (setResources sp s wk w).1 = s)) := by
  refine ⟨sameTab_setResources s wk w, ?_⟩
  simp only [setResources]
  split
  · exact ⟨rfl, fun _ => ⟨[], rfl, .inl rfl⟩, fun h => absurd rfl h⟩
  · split
    · exact ⟨rfl, fun h => by simp at h, fun _ => rfl⟩
    · split
      · exact ⟨rfl, fun h => by simp at h, fun _ => rfl⟩
      · rename_i team _ _ _ _
        exact ⟨rfl, fun _ => ⟨[_], rfl, .inr ⟨_, rfl, rfl⟩⟩, fun h => absurd rfl h⟩

/-- A team that is given is kept; with resource management the team is entered into the table. -/
theorem setResources_team (s : St) (wk : Work) (w : Nat) :
    (∀ T, wk.team = some T → (setResources sp s wk w).2.1.team = some T) ∧
    (s.rm ≠ none → (setResources sp s wk w).2.2 = none → ∃ T, (setResources sp s wk w).1.tr = .assign w T :: s.tr) := by
  constructor
  · intro T hT
    simp only [setResources, teamOf, hT]
    repeat' split
    all_goals first | exact hT | simp_all
  · intro hr he
    simp only [setResources] at he ⊢
    split
    · rename_i h; exact absurd h hr
    · rename_i h
      simp only [h] at he
      split
      · rename_i h2; simp [h2] at he
      · rename_i team h2
        simp only [h2] at he
        split
        · rename_i h3; simp [h3] at he
        · exact ⟨_, rfl⟩

/-- What has happened when the order `wk` was sent with dictionary key `w`: it went to table position `k`, with
team filled in as `wk'`. -/
structure Sent (sp : Specs) (s s' : St) (w k : Nat) (wk wk' : Work) (l0 l : List Ev) : Prop where
  pos : wPos sp.gom s.W.length w = some k
  order : wk' = { wk with team := wk'.team }
  tr : s'.tr = l ++ .order (idAt sp k) w wk' :: (l0 ++ s.tr)
  before : l0 = [] ∨ ∃ team, l0 = [.assign w team] ∧ wk'.team = some team
  team : (∀ T, wk.team = some T → wk'.team = some T) ∧ (s.rm ≠ none → l0 ≠ [])
  after : l = [] ∨ ∃ vals, l = [.rows (idAt sp k) wk.rows vals] ∧ vals = wk.rows.filterMap (s.hist.rows[·]?)
  W : s'.W = s.W ∨ ∃ t, s'.W = s.W.modify k (fun x => { x with genStarted := t })
  pending : s'.pending = s.pending
  exc : s'.exc = s.exc
  hist : s'.hist = s.hist

theorem sendOrder_cases (s : St) (wk : Work) (w : Nat) (t : Int) :
    ((sendOrder sp s wk w t).2 ≠ none ∧ SameTab s (sendOrder sp s wk w t).1 ∧ (sendOrder sp s wk w t).1.hist = s.hist ∧
      ((sendOrder sp s wk w t).1.tr = s.tr ∨ wPos sp.gom s.W.length w = none)) ∨
    (∃ k wk' l0 l, Sent sp s (sendOrder sp s wk w t).1 w k wk wk' l0 l ∧
      ((sendOrder sp s wk w t).2 = none →
        (wk.tag = EVAL_SIM ∨ wk.tag = EVAL_GEN ∨ wk.tag = PERSIS_STOP) ∧
        (wk.rows ≠ [] → l ≠ [] ∧ wk.fields.Nodup ∧ ∀ i ∈ wk.rows, i < s.hist.rows.length) ∧
        (wk.rows = [] → l = [])) ∧ ((sendOrder sp s wk w t).2 ≠ none → l = [])) := by
  have hc := setResources_cases (sp := sp) s wk w
  have hwk := setResources_wk (sp := sp) s wk w
  have htm := setResources_team (sp := sp) s wk w
  simp only [sendOrder]
  generalize setResources sp s wk w = x at hc hwk htm
  obtain ⟨s1, wk1, e⟩ := x
  obtain ⟨hst, hh, hc1, hc2⟩ := hc
  simp only at hst hh hc1 hc2 hwk htm
  cases e with
  | some e =>
    have := hc2 (by simp)
    exact .inl ⟨by simp, hst, hh, .inl (congrArg St.tr this)⟩
  | none =>
    simp only
    obtain ⟨l0, hl0, hl0'⟩ := hc1 rfl
    have hlen : s1.W.length = s.W.length := by rw [hst.W]
    have hteam : (∀ T, wk.team = some T → wk1.team = some T) ∧ (s.rm ≠ none → l0 ≠ []) := by
      refine ⟨htm.1, fun hr he => ?_⟩
      obtain ⟨T, hT⟩ := htm.2 hr rfl
      rw [hl0, he, List.nil_append] at hT
      exact absurd (congrArg List.length hT) (by simp)
    split
    · rename_i hp
      exact .inl ⟨by simp, hst, hh, .inr (by rw [← hlen]; exact hp)⟩
    · rename_i k hp
      right
      have htag : wk1.tag = wk.tag := by rw [hwk]
      have hrows : wk1.rows = wk.rows := by rw [hwk]
      have hfields : wk1.fields = wk.fields := by rw [hwk]
      have hpos : wPos sp.gom (emit s1 (.order (idAt sp k) w wk1)).W.length w = some k := hp
      let s2 := if wk1.tag = EVAL_GEN then modW sp (emit s1 (.order (idAt sp k) w wk1)) w (fun x => { x with genStarted := t })
        else emit s1 (.order (idAt sp k) w wk1)
      have hs2 : s2.tr = .order (idAt sp k) w wk1 :: (l0 ++ s.tr) ∧ s2.pending = s.pending ∧ s2.exc = s.exc ∧
          s2.hist = s.hist ∧ (s2.W = s.W ∨ ∃ t, s2.W = s.W.modify k (fun x => { x with genStarted := t })) := by
        simp only [s2]
        split
        · rw [modW_at hpos]
          exact ⟨by rw [← hl0]; rfl, hst.pending, hst.exc, hh, .inr ⟨t, by rw [← hst.W]; rfl⟩⟩
        · exact ⟨by rw [← hl0]; rfl, hst.pending, hst.exc, hh, .inl hst.W⟩
      have hsend : ∀ (s' : St) (l : List Ev), s'.tr = l ++ s2.tr → s'.W = s2.W → s'.pending = s2.pending → s'.exc = s2.exc →
          s'.hist = s2.hist →
          (l = [] ∨ ∃ vals, l = [.rows (idAt sp k) wk.rows vals] ∧ vals = wk.rows.filterMap (s.hist.rows[·]?)) →
          Sent sp s s' w k wk wk1 l0 l := by
        intro s' l h1 h2 h3 h4 h5 h6
        exact ⟨by rw [← hlen]; exact hp, hwk, by rw [h1, hs2.1], hl0', hteam, h6, by rw [h2]; exact hs2.2.2.2.2,
          h3.trans hs2.2.1, h4.trans hs2.2.2.1, h5.trans hs2.2.2.2.1⟩
      have hunf : sendRows sp (emit s1 (.order (idAt sp k) w wk1)) wk1 w k t =
          if wk1.tag ≠ EVAL_SIM ∧ wk1.tag ≠ EVAL_GEN ∧ wk1.tag ≠ PERSIS_STOP then (s2, some .key)
          else if wk1.rows.isEmpty then (s2, none)
          else if ¬ wk1.fields.Nodup then (s2, some .value)
          else if wk1.rows.any (fun i => decide (s2.hist.rows.length ≤ i)) then (s2, some .index)
          else (emit s2 (.rows (idAt sp k) wk1.rows (wk1.rows.filterMap (s2.hist.rows[·]?))), none) := rfl
      rw [hunf, htag, hrows, hfields]
      split
      · exact ⟨k, wk1, l0, [], hsend s2 [] rfl rfl rfl rfl rfl (.inl rfl), fun h => by simp at h, fun _ => rfl⟩
      · rename_i htg
        have htg' : wk.tag = EVAL_SIM ∨ wk.tag = EVAL_GEN ∨ wk.tag = PERSIS_STOP := by
          by_cases h1 : wk.tag = EVAL_SIM
          · exact .inl h1
          · by_cases h2 : wk.tag = EVAL_GEN
            · exact .inr (.inl h2)
            · by_cases h3 : wk.tag = PERSIS_STOP
              · exact .inr (.inr h3)
              · exact absurd ⟨h1, h2, h3⟩ htg
        split
        · rename_i hr
          have hr' : wk.rows = [] := by simpa using hr
          exact ⟨k, wk1, l0, [], hsend s2 [] rfl rfl rfl rfl rfl (.inl rfl), fun _ => ⟨htg', fun h => absurd hr' h, fun _ => rfl⟩, fun _ => rfl⟩
        · rename_i hr
          split
          · exact ⟨k, wk1, l0, [], hsend s2 [] rfl rfl rfl rfl rfl (.inl rfl), fun h => by simp at h, fun _ => rfl⟩
          · rename_i hnd
            split
            · exact ⟨k, wk1, l0, [], hsend s2 [] rfl rfl rfl rfl rfl (.inl rfl), fun h => by simp at h, fun _ => rfl⟩
            · rename_i hany
              refine ⟨k, wk1, l0, [_], hsend _ [_] rfl rfl rfl rfl rfl (.inr ⟨_, rfl, by rw [hs2.2.2.2.1]⟩), fun _ => ⟨htg', fun _ => ⟨by simp, by simpa using hnd, ?_⟩, fun h => by simp [h] at hr⟩, fun h => absurd rfl h⟩
              intro i hi
              have : ¬ ∃ i ∈ wk.rows, s2.hist.rows.length ≤ i := by
                intro ⟨i, hi, hle⟩
                exact hany (List.any_eq_true.mpr ⟨i, hi, by simpa using hle⟩)
              rw [← hs2.2.2.2.1]
              exact Nat.lt_of_not_le fun hle => this ⟨i, hi, hle⟩

/-- Effect of a successful order on the entry of the worker. -/
def giveEntry (wk : Work) (x : Wrk) : Wrk :=
  if wk.persistent then { x with active := wk.tag, persis := wk.tag, activeRecv := x.activeRecv || wk.activeRecv.getD false }
  else { x with active := wk.tag }

/-- The call of `History` that belongs to an order. -/
def orderOp (sp : Specs) (wk : Work) (w : Nat) (t : Int) : Option Op :=
  if wk.tag = EVAL_SIM then some (.giveSim wk.rows w t sp.kill)
  else if wk.tag = EVAL_GEN then some (.giveGen wk.rows t) else none

theorem modify_modify {α} (l : List α) (k : Nat) (f g : α → α) : (l.modify k f).modify k g = l.modify k (fun x => g (f x)) := by
  induction l generalizing k with
  | nil => simp
  | cons a l ih => cases k <;> simp [List.modify_cons, ih]

/-- `_update_state_on_alloc` after the check of `active_recv`. -/
theorem updateOnAlloc_eq (s : St) (wk : Work) (w k : Nat) (t : Int) (hp : wPos sp.gom s.W.length w = some k) :
    updateOnAlloc sp s wk w t =
      if !wk.persistent && wk.activeRecv.isSome then
        ({ s with W := s.W.modify k (fun x => { x with active := wk.tag }) }, some .recvNotPersistent)
      else match orderOp sp wk w t with
        | none => ({ s with W := s.W.modify k (giveEntry wk) }, none)
        | some o => doOp { s with W := s.W.modify k (giveEntry wk) } o := by
  have h1 : modW sp s w (fun x => { x with active := wk.tag }) = { s with W := s.W.modify k (fun x => { x with active := wk.tag }) } :=
    modW_at hp _
  simp only [updateOnAlloc, h1]
  split
  · rfl
  · have h2 : (if wk.persistent = true then
        modW sp { s with W := s.W.modify k (fun x => { x with active := wk.tag }) } w
          (fun x => { x with persis := wk.tag, activeRecv := x.activeRecv || wk.activeRecv.getD false })
        else { s with W := s.W.modify k (fun x => { x with active := wk.tag }) }) =
        { s with W := s.W.modify k (giveEntry wk) } := by
      split
      · rename_i hpe
        rw [modW_at (k := k) (by simpa using hp)]
        simp only [modify_modify]
        congr 2
        funext x
        simp [giveEntry, hpe]
      · rename_i hpe
        congr 2
        funext x
        simp [giveEntry, hpe]
    rw [h2]
    simp only [orderOp]
    split
    · rfl
    · split <;> rfl

/-- What has happened when the main loop has handed out `wk`. -/
structure Gave (sp : Specs) (s s' : St) (w k : Nat) (t : Int) (wk wk' : Work) (l0 l : List Ev) : Prop where
  pos : wPos sp.gom s.W.length w = some k
  order : wk' = { wk with team := wk'.team }
  before : l0 = [] ∨ ∃ team, l0 = [.assign w team] ∧ wk'.team = some team
  team : (∀ T, wk.team = some T → wk'.team = some T) ∧ (s.rm ≠ none → l0 ≠ [])
  after : l = if wk.rows = [] then [] else [.rows (idAt sp k) wk.rows (wk.rows.filterMap (s.hist.rows[·]?))]
  tag : wk.tag = EVAL_SIM ∨ wk.tag = EVAL_GEN ∨ wk.tag = PERSIS_STOP
  rows : ∀ i ∈ wk.rows, i < s.hist.rows.length
  tr : s'.tr = (match orderOp sp wk w t with | some o => [.op o] | none => []) ++ (l ++ .order (idAt sp k) w wk' :: (l0 ++ s.tr))
  hist : s'.hist = match orderOp sp wk w t with | some o => (apply s.hist o).1 | none => s.hist
  W : ∃ g : Wrk → Wrk, (g = id ∨ ∃ t, g = fun x => { x with genStarted := t }) ∧
    s'.W = s.W.modify k (fun x => giveEntry wk (g x))
  pending : s'.pending = s.pending
  exc : s'.exc = s.exc

theorem getW_pos {s : St} {w : Nat} {x : Wrk} (h : getW sp s w = some x) :
    ∃ k, wPos sp.gom s.W.length w = some k ∧ s.W[k]? = some x := by
  simp only [getW] at h
  cases hp : wPos sp.gom s.W.length w with
  | none => simp [hp] at h
  | some k => exact ⟨k, rfl, by simpa [hp] using h⟩

theorem checkOrder_none {s : St} {wk : Work} {w : Nat} {force : Bool} (h : checkOrder sp s wk w force = none) :
    ∃ k x, wPos sp.gom s.W.length w = some k ∧ s.W[k]? = some x ∧
      ((x.activeRecv = true ∧ wk.activeRecv.isSome) ∨ (x.activeRecv = false ∧ (force = true ∨ x.active = 0))) ∧
      checkFields s wk = none := by
  simp only [checkOrder] at h
  cases hg : getW sp s w with
  | none => simp [hg] at h
  | some x =>
    obtain ⟨k, hk, hx⟩ := getW_pos hg
    simp only [hg] at h
    refine ⟨k, x, hk, hx, ?_⟩
    split at h
    · rename_i hr
      split at h
      · simp at h
      · rename_i hs
        refine ⟨.inl ⟨hr, ?_⟩, h⟩
        cases hx : wk.activeRecv <;> simp_all
    · rename_i hr
      split at h
      · simp at h
      · rename_i hb
        refine ⟨.inr ⟨by simpa using hr, ?_⟩, h⟩
        cases force
        · right; simpa using hb
        · exact .inl rfl

/-- A hand-out in the main loop: refused by the check (nothing happens), refused before the order is sent, given up
after the order was sent, or completed. -/
theorem handOut_cases (s : St) (wk : Work) (w : Nat) (t : Int) :
    (∃ e, checkOrder sp s wk w false = some e ∧ handOut sp s wk w t = (s, some e)) ∨
    (checkOrder sp s wk w false = none ∧
      (((handOut sp s wk w t).2 ≠ none ∧ SameTab s (handOut sp s wk w t).1 ∧ (handOut sp s wk w t).1.hist = s.hist ∧
          (handOut sp s wk w t).1.tr = s.tr) ∨
       (∃ k wk' l0 l, (handOut sp s wk w t).2 ≠ none ∧
          ((Sent sp s (handOut sp s wk w t).1 w k wk wk' l0 l ∧ l = []) ∨
            ((∃ s1, Sent sp s s1 w k wk wk' l0 l ∧ (handOut sp s wk w t).1 =
              { s1 with W := s1.W.modify k (fun x => { x with active := wk.tag }) }) ∧
              wk.persistent = false ∧ wk.activeRecv.isSome = true))) ∨
       (∃ k wk' l0 l, Gave sp s (handOut sp s wk w t).1 w k t wk wk' l0 l ∧
          (wk.persistent = true ∨ wk.activeRecv = none) ∧
          ((handOut sp s wk w t).2 = match orderOp sp wk w t with | some o => (apply s.hist o).2.map .hist | none => none)))) := by
  by_cases hc : checkOrder sp s wk w false = none
  · right
    refine ⟨hc, ?_⟩
    obtain ⟨k0, x, hk0, hx, _⟩ := checkOrder_none hc
    have h0 : handOut sp s wk w t = andThen (sendOrder sp s wk w t) fun s => updateOnAlloc sp s wk w t := by
      simp only [handOut, hc]
    rw [h0]
    rcases sendOrder_cases (sp := sp) s wk w t with ⟨h1, h2, h3, h4⟩ | ⟨k, wk', l0, l, hS, hok, hok2⟩
    · left
      have he : ∃ e, (sendOrder sp s wk w t).2 = some e := by
        cases h : (sendOrder sp s wk w t).2 with
        | none => exact absurd h h1
        | some e => exact ⟨e, rfl⟩
      obtain ⟨e, he⟩ := he
      have : andThen (sendOrder sp s wk w t) (fun s => updateOnAlloc sp s wk w t) = ((sendOrder sp s wk w t).1, some e) := by
        simp only [andThen, he]
      rw [this]
      refine ⟨by simp, h2, h3, ?_⟩
      rcases h4 with h4 | h4
      · exact h4
      · rw [hk0] at h4; simp at h4
    · right
      generalize sendOrder sp s wk w t = y at hS hok hok2
      obtain ⟨s1, e⟩ := y
      cases e with
      | some e =>
        left
        exact ⟨k, wk', l0, l, by simp [andThen], .inl ⟨hS, hok2 (by simp)⟩⟩
      | none =>
        simp only [andThen]
        obtain ⟨htag, hr1, hr2⟩ := hok rfl
        have hlen : s1.W.length = s.W.length := by
          rcases hS.W with h | ⟨t, h⟩ <;> simp only at h <;> rw [h]
          exact List.length_modify _ _ _
        rw [updateOnAlloc_eq s1 wk w k t (by rw [hlen]; exact hS.pos)]
        split
        · rename_i hbad
          left
          simp only [Bool.and_eq_true, Bool.not_eq_true'] at hbad
          exact ⟨k, wk', l0, l, by simp, .inr ⟨⟨s1, hS, rfl⟩, hbad.1, hbad.2⟩⟩
        · rename_i hbad
          right
          have hperm : wk.persistent = true ∨ wk.activeRecv = none := by
            cases hp : wk.persistent
            · right; simpa [hp] using hbad
            · exact .inl rfl
          have hW : ∃ g : Wrk → Wrk, (g = id ∨ ∃ t, g = fun x => { x with genStarted := t }) ∧
              s1.W.modify k (giveEntry wk) = s.W.modify k (fun x => giveEntry wk (g x)) := by
            rcases hS.W with h | ⟨t', h⟩
            · exact ⟨id, .inl rfl, by simp only at h; rw [h]; rfl⟩
            · exact ⟨_, .inr ⟨t', rfl⟩, by simp only at h; rw [h, modify_modify]⟩
          have hafter : l = if wk.rows = [] then [] else
              [.rows (idAt sp k) wk.rows (wk.rows.filterMap (s.hist.rows[·]?))] := by
            split
            · rename_i h; exact hr2 h
            · rename_i h
              rcases hS.after with h' | ⟨vals, h', hv⟩
              · exact absurd h' (hr1 h).1
              · rw [h', hv]
          have hrows : ∀ i ∈ wk.rows, i < s.hist.rows.length := fun i hi =>
            (hr1 (List.ne_nil_of_mem hi)).2.2 i hi
          cases ho : orderOp sp wk w t with
          | none =>
            simp only
            refine ⟨k, wk', l0, l, ⟨hS.pos, hS.order, hS.before, hS.team, hafter, htag, hrows, ?_, ?_, hW, hS.pending, hS.exc⟩,
              hperm, by first | rfl | trivial⟩
            · rw [ho]; exact hS.tr
            · rw [ho]; exact hS.hist
          | some o =>
            have hh : s1.hist = s.hist := hS.hist
            simp only
            refine ⟨k, wk', l0, l, ⟨hS.pos, hS.order, hS.before, hS.team, hafter, htag, hrows, ?_, ?_, ?_, ?_, ?_⟩, hperm, ?_⟩
            · rw [ho]; simp only [doOp]; rw [hS.tr]; rfl
            · rw [ho]; simp only [doOp, hh]
            · simpa only [doOp] using hW
            · exact hS.pending
            · exact hS.exc
            · simp only [doOp, hh]
  · left
    obtain ⟨e, he⟩ : ∃ e, checkOrder sp s wk w false = some e := by
      cases h : checkOrder sp s wk w false with
      | none => exact absurd h hc
      | some e => exact ⟨e, rfl⟩
    exact ⟨e, he, by simp only [handOut, he]⟩

theorem handOut_ok {s : St} {wk : Work} {w : Nat} {t : Int} (h : (handOut sp s wk w t).2 = none) :
    checkOrder sp s wk w false = none ∧ ∃ k wk' l0 l, Gave sp s (handOut sp s wk w t).1 w k t wk wk' l0 l ∧
      (wk.persistent = true ∨ wk.activeRecv = none) := by
  rcases handOut_cases (sp := sp) s wk w t with ⟨e, _, he⟩ | ⟨hc, hcase⟩
  · rw [he] at h; simp at h
  · refine ⟨hc, ?_⟩
    rcases hcase with ⟨h1, _⟩ | ⟨_, _, _, _, h1, _⟩ | ⟨k, wk', l0, l, hG, hp, _⟩
    · exact absurd h h1
    · exact absurd h h1
    · exact ⟨k, wk', l0, l, hG, hp⟩

end Verif.Manager
