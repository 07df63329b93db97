import Verif.Manager.Phase
/-
Statements of the form "whenever something happened, what had happened before was such and such".
-/
namespace Verif.Manager
open Verif.History Verif.Res Verif.Sched Verif.Alloc

variable {sp : Specs} {P : St → Reply → Prop} {s0 : St}

/-- `G pre e` for every event `e` of the record, where `pre` is what had happened before. -/
def Always (G : List Ev → Ev → Prop) (tr : List Ev) : Prop := ∀ post e pre, tr = post ++ e :: pre → G pre e

theorem Always.nil {G : List Ev → Ev → Prop} : Always G [] := by
  intro post e pre h; simp at h

theorem always_cons {G : List Ev → Ev → Prop} {e : Ev} {tr : List Ev} : Always G (e :: tr) ↔ G tr e ∧ Always G tr := by
  constructor
  · intro h
    refine ⟨h [] e tr rfl, fun post e' pre he => h (e :: post) e' pre (by rw [he]; rfl)⟩
  · rintro ⟨h1, h2⟩ post e' pre he
    cases post with
    | nil => simp only [List.nil_append, List.cons.injEq] at he; obtain ⟨rfl, rfl⟩ := he; exact h1
    | cons a post => simp only [List.cons_append, List.cons.injEq] at he; obtain ⟨rfl, he⟩ := he; exact h2 _ _ _ he

theorem Always.append {G : List Ev → Ev → Prop} {l tr : List Ev} (h : Always G tr)
    (hl : ∀ e ∈ l, ∀ pre, G pre e) : Always G (l ++ tr) := by
  induction l with
  | nil => exact h
  | cons e l ih =>
    exact always_cons.mpr ⟨hl e List.mem_cons_self _, ih (fun e he => hl e (List.mem_cons_of_mem _ he))⟩

theorem Micros.always {Q : Ev → Prop} {G : List Ev → Ev → Prop} {a b : St} (h : Micros sp Q a b) (ha : Always G a.tr)
    (hq : ∀ e, Q e → ∀ pre, G pre e) : Always G b.tr := by
  obtain ⟨l, hl, hle⟩ := h.tr
  rw [hl]
  exact ha.append (fun e he => hq e (hle e he))

/-- A statement about orders. -/
def onOrder (g : List Ev → Nat → Nat → Work → Prop) (pre : List Ev) : Ev → Prop
  | .order to key wk => g pre to key wk
  | _ => True

/-- An order given in the main loop: what is known when it is sent. -/
theorem Reach.orders {g : List Ev → Nat → Nat → Work → Prop} {p : Ph} {s : St} (h : Reach sp P s0 p s)
    (h0 : Always (onOrder g) s0.tr) (hf0 : Manager.hasFinal s0.tr = false)
    (hfin : ∀ pre to key wk, Manager.hasFinal pre = true → g pre to key wk)
    (hgive : ∀ s w wk t rest k wk' l0, Reach sp P s0 (.hand ((w, wk, t) :: rest)) s → simMaxGiven sp s.hist = false →
      checkOrder sp s wk w false = none → wPos sp.gom s.W.length w = some k → wk' = { wk with team := wk'.team } →
      (l0 = [] ∨ ∃ team, l0 = [.assign w team]) → g (l0 ++ s.tr) (idAt sp k) w wk') :
    Always (onOrder g) s.tr := by
  have hsend : ∀ {s : St} {w wk t rest s1 k wk' l0 l}, Reach sp P s0 (.hand ((w, wk, t) :: rest)) s → simMaxGiven sp s.hist = false →
      checkOrder sp s wk w false = none → Sent sp s s1 w k wk wk' l0 l → Always (onOrder g) s.tr → Always (onOrder g) s1.tr := by
    intro s w wk t rest s1 k wk' l0 l hr hm hc hS ih
    rw [hS.tr]
    refine Always.append (always_cons.mpr ⟨?_, Always.append ih ?_⟩) ?_
    · refine hgive _ _ _ _ _ _ _ _ hr hm hc hS.pos hS.order ?_
      rcases hS.before with h | ⟨team, h, _⟩
      · exact .inl h
      · exact .inr ⟨team, h⟩
    · rcases hS.before with h | ⟨team, h, _⟩ <;> rw [h] <;> simp [onOrder]
    · rcases hS.after with h | ⟨vals, h, _⟩ <;> rw [h] <;> simp [onOrder]
  have hhand : ∀ {s : St} {w wk t rest}, Reach sp P s0 (.hand ((w, wk, t) :: rest)) s → simMaxGiven sp s.hist = false →
      Always (onOrder g) s.tr → Always (onOrder g) (handOut sp s wk w t).1.tr := by
    intro s w wk t rest hr hm ih
    rcases handOut_cases (sp := sp) s wk w t with ⟨e, _, he⟩ | ⟨hc, h | ⟨k, wk', l0, l, _, h⟩ | ⟨k, wk', l0, l, h, _⟩⟩
    · rw [he]; exact ih
    · rw [h.2.2.2]; exact ih
    · rcases h with ⟨h, _⟩ | ⟨⟨s1, h, h'⟩, _⟩
      · exact hsend hr hm hc h ih
      · rw [h']; exact hsend (s1 := s1) hr hm hc h ih
    · rw [h.tr]
      refine Always.append (Always.append (always_cons.mpr ⟨?_, Always.append ih ?_⟩) ?_) ?_
      · refine hgive _ _ _ _ _ _ _ _ hr hm hc h.pos h.order ?_
        rcases h.before with h | ⟨team, h, _⟩
        · exact .inl h
        · exact .inr ⟨team, h⟩
      · rcases h.before with h | ⟨team, h, _⟩ <;> rw [h] <;> simp [onOrder]
      · rw [h.after]; split <;> simp [onOrder]
      · cases orderOp sp wk w t <;> simp [onOrder]
  have hmsg : ∀ {s : St} {w m t}, Always (onOrder g) s.tr → Always (onOrder g) (handleMsg sp s w m t).1.tr :=
    fun {s w m t} ih => (micros_handleMsg s w m t).always ih (fun e h pre => by cases h <;> trivial)
  have hkill : ∀ {s : St}, Always (onOrder g) s.tr → Always (onOrder g) (killCancelled sp s).1.tr :=
    fun {s} ih => (micros_killCancelled s).always ih (fun e h pre => by cases h <;> trivial)
  have hsave : ∀ {s : St} {b}, Always (onOrder g) s.tr → Always (onOrder g) (saveK sp s b).tr :=
    fun {s b} ih => (micros_saveK (Q := fun _ => False) s b).always ih (fun e h pre => h.elim)
  have hop : ∀ {s : St} {o}, Always (onOrder g) s.tr → Always (onOrder g) (doOp s o).1.tr :=
    fun ih => always_cons.mpr ⟨trivial, ih⟩
  have hstop : ∀ {s : St} {x ws w t}, Reach sp P s0 (.fin x ws) s → Always (onOrder g) s.tr → Always (onOrder g) (stopPersis sp s w t).1.tr := by
    intro s x ws w t hr ih
    have hfs : Manager.hasFinal s.tr = true := hr.hasFinal hf0
    obtain ⟨l, hl⟩ : ∃ l, (stopPersis sp s w t).1.tr = l ++ s.tr := by
      obtain ⟨l, hl, _⟩ := (micros_stopPersis (sp := sp) s w t).tr
      exact ⟨l, hl⟩
    rw [hl]
    clear hl
    induction l with
    | nil => exact ih
    | cons e l ihl =>
      rw [List.cons_append]
      refine always_cons.mpr ⟨?_, ihl⟩
      cases e <;> try trivial
      exact hfin _ _ _ _ (by rw [hasFinal_append, hfs, Bool.or_true])
  induction h with
  | init => exact h0
  | test e _ _ ih => exact always_cons.mpr ⟨trivial, ih⟩
  | stop e _ _ ih => exact always_cons.mpr ⟨trivial, ih⟩
  | kill _ _ ih => exact hkill ih
  | killErr _ _ ih => exact hkill ih
  | mail w m t _ _ _ ih => exact hmsg ih
  | mailErr w m t _ _ _ ih => exact hmsg ih
  | save _ ih => exact hsave ih
  | allocErr cs _ _ ih => exact hop ih
  | allocFlag cs work p _ _ ih => exact hop ih
  | allocOk cs work p t _ _ ih => exact hop ih
  | give hr hm _ ih => exact hhand hr hm ih
  | giveErr hr hm _ ih => exact hhand hr hm ih
  | again _ _ _ ih => exact ih
  | noWork _ _ ih => exact ih
  | final _ ih => exact always_cons.mpr ⟨trivial, ih⟩
  | pstop t hr _ ih => exact hstop hr ih
  | pstopErr t hr _ ih => exact hstop hr ih
  | drain _ ih => exact ih
  | dmail w m t _ _ _ ih => exact hmsg ih
  | dmailErr w m t _ _ _ ih => exact hmsg ih
  | dsave _ ih => exact hsave ih
  | done p _ ih => exact (micros_killWorkers (sp := sp) _).always (hsave ih) (fun e h pre => by obtain ⟨w, rfl⟩ := h; trivial)

/-- Induction over runs for statements about events. -/
theorem Reach.always {G : List Ev → Ev → Prop} {p : Ph} {s : St} (h : Reach sp P s0 p s) (h0 : Always G s0.tr)
    (htest : ∀ s e, Reach sp P s0 .loop s → G s.tr (.test (termTest sp s.hist e)))
    (hkill : ∀ s, Reach sp P s0 .kill s → Always G s.tr → Always G (killCancelled sp s).1.tr)
    (hmsg : ∀ p s w m t, Reach sp P s0 p s → (p = .recv ∨ ∃ x, p = .drain x) → w ∈ ids s → Always G s.tr →
      Always G (handleMsg sp s w m t).1.tr)
    (hcancel : ∀ s cs, Reach sp P s0 .alloc s → G s.tr (.op (.requestCancel cs)))
    (hgive : ∀ s w wk t rest, Reach sp P s0 (.hand ((w, wk, t) :: rest)) s → simMaxGiven sp s.hist = false → Always G s.tr →
      Always G (handOut sp s wk w t).1.tr)
    (hfinal : ∀ s x, Reach sp P s0 (.over x) s → G s.tr .final)
    (hstop : ∀ s x w ws t, Reach sp P s0 (.fin x (w :: ws)) s → Always G s.tr → Always G (stopPersis sp s w t).1.tr)
    (hend : ∀ s x, Reach sp P s0 (.drain x) s → Always G s.tr → Always G (Manager.killWorkers s).tr) :
    Always G s.tr := by
  have hsave : ∀ {s : St} {b}, Always G s.tr → Always G (saveK sp s b).tr :=
    fun {s b} ih => (micros_saveK (Q := fun _ => False) s b).always ih (fun e h pre => h.elim)
  induction h with
  | init => exact h0
  | test e hr h1 ih => exact always_cons.mpr ⟨h1 ▸ htest _ e hr, ih⟩
  | stop e hr _ ih => exact always_cons.mpr ⟨htest _ e hr, ih⟩
  | kill hr _ ih => exact hkill _ hr ih
  | killErr hr _ ih => exact hkill _ hr ih
  | mail w m t hr hw _ ih => exact hmsg _ _ _ _ _ hr (.inl rfl) hw ih
  | mailErr w m t hr hw _ ih => exact hmsg _ _ _ _ _ hr (.inl rfl) hw ih
  | save _ ih => exact hsave ih
  | allocErr cs hr _ ih => exact always_cons.mpr ⟨hcancel _ _ hr, ih⟩
  | allocFlag cs work p hr _ ih => exact always_cons.mpr ⟨hcancel _ _ hr, ih⟩
  | allocOk cs work p t hr _ ih => exact always_cons.mpr ⟨hcancel _ _ hr, ih⟩
  | give hr hm _ ih => exact hgive _ _ _ _ _ hr hm ih
  | giveErr hr hm _ ih => exact hgive _ _ _ _ _ hr hm ih
  | again _ _ _ ih => exact ih
  | noWork _ _ ih => exact ih
  | final hr ih => exact always_cons.mpr ⟨hfinal _ _ hr, ih⟩
  | pstop t hr _ ih => exact hstop _ _ _ _ t hr ih
  | pstopErr t hr _ ih => exact hstop _ _ _ _ t hr ih
  | drain _ ih => exact ih
  | dmail w m t hr hw _ ih => exact hmsg _ _ _ _ _ hr (.inr ⟨_, rfl⟩) hw ih
  | dmailErr w m t hr hw _ ih => exact hmsg _ _ _ _ _ hr (.inr ⟨_, rfl⟩) hw ih
  | dsave _ ih => exact hsave ih
  | done p hr ih =>
    have h3 := hend _ _ hr ih
    simp only [killWorkers_eq] at h3 ⊢
    have e1 : ∀ s b, ids (saveK sp s b) = ids s := fun s b => by simp only [ids]; rw [(sameTab_saveK s b).W]
    have e2 : ∀ s b, (saveK sp s b).tr = s.tr := fun s b => by simp only [saveK]; split <;> split <;> rfl
    rw [e1, e2]; exact h3

/-- A statement that no event of the manager's functions breaks. -/
theorem always_of {G : List Ev → Ev → Prop} {Q : Ev → Prop} {a b : St} (h : Micros sp Q a b) (ha : Always G a.tr)
    (hq : ∀ e, Q e → ∀ l, (∀ e ∈ l, Q e) → G (l ++ a.tr) e) : Always G b.tr := by
  obtain ⟨l, hl, hle⟩ := h.tr
  rw [hl]
  clear hl
  induction l with
  | nil => exact ha
  | cons e l ih =>
    exact always_cons.mpr ⟨hq e (hle e List.mem_cons_self) l (fun e he => hle e (List.mem_cons_of_mem _ he)),
      ih (fun e he => hle e (List.mem_cons_of_mem _ he))⟩

/-- After the end of the main loop the only orders are persistent stops. -/
theorem Reach.lateOrders {p : Ph} {s : St} (h : Reach sp P s0 p s) (h0 : s0.tr = []) :
    Always (onOrder fun pre _ _ wk => Manager.hasFinal pre = true → wk.tag = PERSIS_STOP) s.tr := by
  refine h.always (by rw [h0]; exact .nil) (fun _ _ _ => trivial) (fun s _ ih => ?_) (fun p s w m t _ _ _ ih => ?_)
    (fun _ _ _ => trivial) (fun s w wk t rest hr _ ih => ?_) (fun _ _ _ => trivial) (fun s x w ws t _ ih => ?_) (fun s x _ ih => ?_)
  · exact (micros_killCancelled s).always ih (fun e h pre => by cases h <;> trivial)
  · exact (micros_handleMsg s w m t).always ih (fun e h pre => by cases h <;> trivial)
  · refine always_of (micros_handOut s wk w t) ih (fun e he l hl => ?_)
    have hf : Manager.hasFinal (l ++ s.tr) = false := by
      rw [hasFinal_append, hr.hasFinal (by rw [h0]; rfl), hasFinal_false (fun e he => ?_)]
      · rfl
      · cases hl e he with
        | send h => exact h.ne_final
        | _ => simp
    cases e with
    | order to key wk => exact fun h => by rw [hf] at h; simp at h
    | _ => trivial
  · refine (micros_stopPersis s w t).always ih (fun e he pre => ?_)
    cases e with
    | order to key wk =>
      intro _
      cases he with
      | send wk0 h0 h => cases h with
        | order to wk' hwk => rw [hwk]; exact h0
    | _ => trivial
  · exact (micros_killWorkers (sp := sp) s).always ih (fun e h pre => by obtain ⟨w, rfl⟩ := h; trivial)

end Verif.Manager
