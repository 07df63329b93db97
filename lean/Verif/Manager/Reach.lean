import Verif.Manager.Model
/-
The runs of the manager as a transition system: one transition per call of one of the functions of the model.
Used only for proofs by induction; `run_reach` ties it to `run`.
-/
namespace Verif.Manager
open Verif.History Verif.Res Verif.Sched Verif.Alloc

/-- Place in the program. -/
inductive Ph
  | loop | kill | recv | alloc
  | hand (rest : List (Nat × Work × Int))
  | over (e : MainEnd)
  | fin (e : MainEnd) (ws : List Nat)
  | drain (e : MainEnd) | aborted (e : MainEnd) | done (e : MainEnd)

/-- States of runs in which the answers of the allocation function satisfy `P`. -/
inductive Reach (sp : Specs) (P : St → Reply → Prop) (s0 : St) : Ph → St → Prop
  | init : Reach sp P s0 .loop s0
  | test {s : St} (e : Int) : Reach sp P s0 .loop s → termTest sp s.hist e = 0 → Reach sp P s0 .kill (emit s (.test 0))
  | stop {s : St} (e : Int) : Reach sp P s0 .loop s → termTest sp s.hist e ≠ 0 →
      Reach sp P s0 (.over (.stopped (termTest sp s.hist e))) (emit s (.test (termTest sp s.hist e)))
  | kill {s : St} : Reach sp P s0 .kill s → (killCancelled sp s).2 = none → Reach sp P s0 .recv (killCancelled sp s).1
  | killErr {s : St} {e : MErr} : Reach sp P s0 .kill s → (killCancelled sp s).2 = some e →
      Reach sp P s0 (.over (.raised e)) (killCancelled sp s).1
  | mail {s : St} (w : Nat) (m : Msg) (t : Int) : Reach sp P s0 .recv s → w ∈ ids s → (handleMsg sp s w m t).2 = none →
      Reach sp P s0 .recv (handleMsg sp s w m t).1
  | mailErr {s : St} {e : MErr} (w : Nat) (m : Msg) (t : Int) : Reach sp P s0 .recv s → w ∈ ids s →
      (handleMsg sp s w m t).2 = some e → Reach sp P s0 (.over (.raised e)) (handleMsg sp s w m t).1
  | save {s : St} : Reach sp P s0 .recv s → Reach sp P s0 .alloc (saveK sp s false)
  | allocErr {s : St} (cs : List Nat) : Reach sp P s0 .alloc s → P s (.raised cs) →
      Reach sp P s0 (.over (.raised .alloc)) (doOp s (.requestCancel cs)).1
  | allocFlag {s : St} (cs : List Nat) (work : List (Nat × Work)) (p : PInfo) : Reach sp P s0 .alloc s →
      P s (.ok cs work true p) → Reach sp P s0 (.over .flagged) { (doOp s (.requestCancel cs)).1 with pinfo := p }
  | allocOk {s : St} (cs : List Nat) (work : List (Nat × Work)) (p : PInfo) (t : Nat → Int) : Reach sp P s0 .alloc s →
      P s (.ok cs work false p) →
      Reach sp P s0 (.hand (work.map fun q => (q.1, q.2, t q.1))) { (doOp s (.requestCancel cs)).1 with pinfo := p }
  | give {s : St} {w : Nat} {wk : Work} {t : Int} {rest : List (Nat × Work × Int)} :
      Reach sp P s0 (.hand ((w, wk, t) :: rest)) s → simMaxGiven sp s.hist = false → (handOut sp s wk w t).2 = none →
      Reach sp P s0 (.hand rest) (handOut sp s wk w t).1
  | giveErr {s : St} {e : MErr} {w : Nat} {wk : Work} {t : Int} {rest : List (Nat × Work × Int)} :
      Reach sp P s0 (.hand ((w, wk, t) :: rest)) s → simMaxGiven sp s.hist = false → (handOut sp s wk w t).2 = some e →
      Reach sp P s0 (.over (.raised e)) (handOut sp s wk w t).1
  | again {s : St} {rest : List (Nat × Work × Int)} : Reach sp P s0 (.hand rest) s →
      (rest = [] ∨ simMaxGiven sp s.hist = true) →
      ((∃ e, termTest sp s.hist e ≠ 0) ∨ anyActive s = true) → Reach sp P s0 .loop s
  | noWork {s : St} {rest : List (Nat × Work × Int)} : Reach sp P s0 (.hand rest) s → anyActive s = false →
      Reach sp P s0 (.over (.raised .noWork)) s
  | final {s : St} {x : MainEnd} : Reach sp P s0 (.over x) s → Reach sp P s0 (.fin x (persisIds s)) (emit s .final)
  | pstop {s : St} {x : MainEnd} {w : Nat} {ws : List Nat} (t : Int) : Reach sp P s0 (.fin x (w :: ws)) s →
      (stopPersis sp s w t).2 = none → Reach sp P s0 (.fin x ws) (stopPersis sp s w t).1
  | pstopErr {s : St} {x : MainEnd} {w : Nat} {ws : List Nat} (t : Int) : Reach sp P s0 (.fin x (w :: ws)) s →
      (stopPersis sp s w t).2 ≠ none → Reach sp P s0 (.aborted x) (stopPersis sp s w t).1
  | drain {s : St} {x : MainEnd} : Reach sp P s0 (.fin x []) s → Reach sp P s0 (.drain x) s
  | dmail {s : St} {x : MainEnd} (w : Nat) (m : Msg) (t : Int) : Reach sp P s0 (.drain x) s → w ∈ ids s →
      (handleMsg sp s w m t).2 = none → Reach sp P s0 (.drain x) (handleMsg sp s w m t).1
  | dmailErr {s : St} {x : MainEnd} (w : Nat) (m : Msg) (t : Int) : Reach sp P s0 (.drain x) s → w ∈ ids s →
      (handleMsg sp s w m t).2 ≠ none → Reach sp P s0 (.aborted x) (handleMsg sp s w m t).1
  | dsave {s : St} {x : MainEnd} : Reach sp P s0 (.drain x) s → Reach sp P s0 (.drain x) (saveK sp s false)
  | done {s : St} {x : MainEnd} (p : PInfo) : Reach sp P s0 (.drain x) s →
      Reach sp P s0 (.done x) { killWorkers (saveK sp s sp.saveDone) with pinfo := p }

variable {sp : Specs} {P : St → Reply → Prop} {s0 : St}

theorem handleAll_reach (xs : List Mail) (s : St) (h : Reach sp P s0 .recv s) :
    ((handleAll sp xs s).2 = none → Reach sp P s0 .recv (handleAll sp xs s).1) ∧
    (∀ e, (handleAll sp xs s).2 = some e → Reach sp P s0 (.over (.raised e)) (handleAll sp xs s).1) := by
  induction xs generalizing s with
  | nil => exact ⟨fun _ => h, fun e he => by simp [handleAll] at he⟩
  | cons x xs ih =>
    simp only [handleAll]
    split
    · rename_i hw
      simp only [andThen]
      split
      · rename_i e he
        refine ⟨fun h => by simp at h, fun e' he' => ?_⟩
        obtain rfl : e = e' := by simpa using he'
        exact .mailErr _ _ _ h hw he
      · rename_i he
        exact ih _ (.mail _ _ _ h hw he)
    · exact ih _ h

theorem handleAll_dreach {x : MainEnd} (xs : List Mail) (s : St) (h : Reach sp P s0 (.drain x) s) :
    ((handleAll sp xs s).2 = none → Reach sp P s0 (.drain x) (handleAll sp xs s).1) ∧
    ((handleAll sp xs s).2 ≠ none → Reach sp P s0 (.aborted x) (handleAll sp xs s).1) := by
  induction xs generalizing s with
  | nil => exact ⟨fun _ => h, fun hn => absurd rfl hn⟩
  | cons y xs ih =>
    simp only [handleAll]
    split
    · rename_i hw
      simp only [andThen]
      split
      · rename_i e he
        refine ⟨fun h => by simp at h, fun _ => ?_⟩
        exact .dmailErr _ _ _ h hw (by rw [he]; simp)
      · rename_i he
        exact ih _ (.dmail _ _ _ h hw he)
    · exact ih _ h

theorem handOutAll_reach (l : List (Nat × Work × Int)) (s : St) (h : Reach sp P s0 (.hand l) s) :
    ((handOutAll sp l s).2 = none → ∃ rest, Reach sp P s0 (.hand rest) (handOutAll sp l s).1 ∧
      (rest = [] ∨ simMaxGiven sp (handOutAll sp l s).1.hist = true)) ∧
    (∀ e, (handOutAll sp l s).2 = some e → Reach sp P s0 (.over (.raised e)) (handOutAll sp l s).1) := by
  induction l generalizing s with
  | nil => exact ⟨fun _ => ⟨[], h, .inl rfl⟩, fun e he => by simp [handOutAll] at he⟩
  | cons x rest ih =>
    obtain ⟨w, wk, t⟩ := x
    simp only [handOutAll]
    split
    · rename_i hg
      exact ⟨fun _ => ⟨_, h, .inr hg⟩, fun e he => by simp at he⟩
    · rename_i hg
      simp only [andThen]
      split
      · rename_i e he
        refine ⟨fun h => by simp at h, fun e' he' => ?_⟩
        obtain rfl : e = e' := by simpa using he'
        exact .giveErr h (by simpa using hg) he
      · rename_i he
        exact ih _ (.give h (by simpa using hg) he)

/-- How the main loop ends if a pass ends it. -/
def Flow.toEnd : Flow → MainEnd
  | .next => .running
  | .flagged => .flagged
  | .raised e => .raised e

theorem iter_reach (it : Iter) (s : St) (hP : ∀ s, P s (it.alloc s)) (h : Reach sp P s0 .kill s) :
    ((iter sp s it).2 = .next → Reach sp P s0 .loop (iter sp s it).1) ∧
    ((iter sp s it).2 ≠ .next → Reach sp P s0 (.over (iter sp s it).2.toEnd) (iter sp s it).1) := by
  have key : (∃ e, (andThen (killCancelled sp s) (fun s => receive sp s it.mail)).2 = some e ∧
        Reach sp P s0 (.over (.raised e)) (andThen (killCancelled sp s) (fun s => receive sp s it.mail)).1) ∨
      ((andThen (killCancelled sp s) (fun s => receive sp s it.mail)).2 = none ∧
        Reach sp P s0 .alloc (andThen (killCancelled sp s) (fun s => receive sp s it.mail)).1) := by
    simp only [andThen]
    split
    · rename_i e he
      exact .inl ⟨e, rfl, .killErr h he⟩
    · rename_i he
      have hr := handleAll_reach it.mail _ (.kill h he)
      simp only [receive, andThen]
      split
      · rename_i e he'
        exact .inl ⟨e, rfl, hr.2 _ he'⟩
      · rename_i he'
        exact .inr ⟨rfl, .save (hr.1 he')⟩
  simp only [iter]
  generalize andThen (killCancelled sp s) (fun s => receive sp s it.mail) = x at key
  obtain ⟨s1, e1⟩ := x
  rcases key with ⟨e, he, hr⟩ | ⟨he, hr⟩
  · simp only at he; subst he
    exact ⟨fun h => by simp at h, fun _ => hr⟩
  · simp only at he; subst he
    simp only
    have hp := hP s1
    cases ha : it.alloc s1 with
    | raised cs => exact ⟨fun h => by simp at h, fun _ => .allocErr cs hr (by rw [← ha]; exact hp)⟩
    | ok cs work flag p =>
      rw [ha] at hp
      cases flag with
      | true => exact ⟨fun h => by simp at h, fun _ => .allocFlag cs work p hr hp⟩
      | false =>
        simp only [Bool.false_eq_true, if_false, afterAlloc]
        have := handOutAll_reach _ _ (.allocOk cs work p it.t hr hp)
        generalize handOutAll sp _ _ = y at this
        obtain ⟨s2, e2⟩ := y
        cases e2 with
        | some e => exact ⟨fun h => by simp at h, fun _ => this.2 e rfl⟩
        | none =>
          obtain ⟨rest, h2, h3⟩ := this.1 rfl
          simp only
          split
          · rename_i hc
            refine ⟨fun _ => .again h2 h3 ?_, fun h => by simp at h⟩
            simp only [Bool.or_eq_true, decide_eq_true_eq] at hc
            rcases hc with hc | hc
            · exact .inl ⟨_, hc⟩
            · exact .inr hc
          · rename_i hc
            refine ⟨fun h => by simp at h, fun _ => .noWork h2 ?_⟩
            simp only [Bool.or_eq_true, not_or, Bool.not_eq_true] at hc
            exact hc.2

theorem mainLoop_reach (its : List Iter) (s : St) (hP : ∀ it ∈ its, ∀ s, P s (it.alloc s)) (h : Reach sp P s0 .loop s) :
    ((mainLoop sp its s).2 = .running → Reach sp P s0 .loop (mainLoop sp its s).1) ∧
    ((mainLoop sp its s).2 ≠ .running → Reach sp P s0 (.over (mainLoop sp its s).2) (mainLoop sp its s).1) := by
  induction its generalizing s with
  | nil => exact ⟨fun _ => h, fun hn => absurd rfl hn⟩
  | cons it its ih =>
    simp only [mainLoop]
    by_cases hr : termTest sp s.hist it.e1 = 0
    · rw [if_neg (by simp [hr])]
      have hi := iter_reach it _ (hP it List.mem_cons_self) (.test it.e1 h hr)
      rw [hr]
      generalize iter sp _ it = x at hi
      obtain ⟨s1, f⟩ := x
      cases f with
      | next => exact ih s1 (fun it hm => hP it (List.mem_cons_of_mem _ hm)) (hi.1 rfl)
      | flagged => exact ⟨fun h => by simp at h, fun _ => hi.2 (by simp)⟩
      | raised e => exact ⟨fun h => by simp at h, fun _ => hi.2 (by simp)⟩
    · rw [if_pos hr]
      exact ⟨fun h => by simp at h, fun _ => .stop _ h hr⟩

theorem stopAll_reach {x : MainEnd} (t : Nat → Int) (ws : List Nat) (s : St) (h : Reach sp P s0 (.fin x ws) s) :
    ((stopAllPersis sp t ws s).2 = none → Reach sp P s0 (.fin x []) (stopAllPersis sp t ws s).1) ∧
    ((stopAllPersis sp t ws s).2 ≠ none → Reach sp P s0 (.aborted x) (stopAllPersis sp t ws s).1) := by
  induction ws generalizing s with
  | nil => exact ⟨fun _ => h, fun hn => absurd rfl hn⟩
  | cons w ws ih =>
    simp only [stopAllPersis, andThen]
    split
    · rename_i e he
      exact ⟨fun h => by simp at h, fun _ => .pstopErr _ h (by rw [he]; simp)⟩
    · rename_i he
      exact ih _ (.pstop _ h he)

theorem receive_dreach {x : MainEnd} (xs : List Mail) (s : St) (h : Reach sp P s0 (.drain x) s) :
    ((receive sp s xs).2 = none → Reach sp P s0 (.drain x) (receive sp s xs).1) ∧
    ((receive sp s xs).2 ≠ none → Reach sp P s0 (.aborted x) (receive sp s xs).1) := by
  have hr := handleAll_dreach xs s h
  simp only [receive, andThen]
  split
  · rename_i e he
    exact ⟨fun h => by simp at h, fun _ => hr.2 (by rw [he]; simp)⟩
  · rename_i he
    exact ⟨fun _ => .dsave (hr.1 he), fun hn => absurd rfl hn⟩

theorem drain_reach {x : MainEnd} (rs : List Round) (s : St) (h : Reach sp P s0 (.drain x) s) :
    ((∀ e, (drain sp rs s).2 ≠ .error e) → Reach sp P s0 (.drain x) (drain sp rs s).1) ∧
    (∀ e, (drain sp rs s).2 = .error e → Reach sp P s0 (.aborted x) (drain sp rs s).1) := by
  induction rs generalizing s with
  | nil =>
    simp only [drain]
    split <;> exact ⟨fun _ => h, fun e he => by simp at he⟩
  | cons r rs ih =>
    simp only [drain]
    split
    · have hr := receive_dreach r.mail s h
      generalize receive sp s r.mail = z at hr
      obtain ⟨s1, e⟩ := z
      cases e with
      | some e => exact ⟨fun h => absurd rfl (h e), fun _ _ => hr.2 (by simp)⟩
      | none =>
        simp only
        split
        · exact ih s1 (hr.1 rfl)
        · exact ⟨fun _ => hr.1 rfl, fun e he => by simp at he⟩
    · exact ⟨fun _ => h, fun e he => by simp at he⟩

/-- Where a run can be. -/
def Outcome.ph : Outcome → Ph → Prop
  | .running, p => p = .loop
  | .waiting, p => ∃ e, p = .drain e
  | .returned _, p => p = .done .flagged ∨ ∃ r, p = .done (.stopped r)
  | .raised e, p => p = .done (.raised e)
  | .raisedFinal _, p => ∃ e, p = .aborted e

theorem finalPhase_reach {x : MainEnd} (s : St) (t : Nat → Int) (rounds : List Round) (h : Reach sp P s0 (.over x) s) :
    match (finalPhase sp (emit s .final) t rounds).2 with
    | .waiting => Reach sp P s0 (.drain x) (finalPhase sp (emit s .final) t rounds).1
    | .raised _ => Reach sp P s0 (.aborted x) (finalPhase sp (emit s .final) t rounds).1
    | .done _ => Reach sp P s0 (.done x) (finalPhase sp (emit s .final) t rounds).1 := by
  have h1 := stopAll_reach t (persisIds s) _ (.final h)
  have hp : persisIds (emit s .final) = persisIds s := rfl
  simp only [finalPhase, hp]
  generalize stopAllPersis sp t (persisIds s) (emit s .final) = z at h1
  obtain ⟨s1, e⟩ := z
  cases e with
  | some e => exact h1.2 (by simp)
  | none =>
    have h2 := drain_reach rounds s1 (.drain (h1.1 rfl))
    simp only
    generalize drain sp rounds s1 = y at h2
    obtain ⟨s2, r⟩ := y
    cases r with
    | error e => exact h2.2 e rfl
    | ok o =>
      have h3 := h2.1 (by simp)
      cases o with
      | none => exact h3
      | some f => exact .done _ h3

/-- Every run is a run of the transition system. -/
theorem run_reach (its : List Iter) (t : Nat → Int) (rounds : List Round)
    (hP : ∀ it ∈ its, ∀ s, P s (it.alloc s)) :
    ∃ p, (run sp s0 its t rounds).2.ph p ∧ Reach sp P s0 p (run sp s0 its t rounds).1 := by
  have hm := mainLoop_reach (sp := sp) (P := P) (s0 := s0) its s0 hP .init
  simp only [run]
  generalize mainLoop sp its s0 = x at hm
  obtain ⟨s1, e⟩ := x
  have main : e ≠ .running → ∃ p, (match finalPhase sp (emit s1 .final) t rounds with
      | (s, .waiting) => (s, Outcome.waiting)
      | (s, .raised x) => (s, .raisedFinal x)
      | (s, .done f) => match e with
        | .raised x => (s, .raised x)
        | _ => (s, .returned f)).2.ph p ∧ Reach sp P s0 p (match finalPhase sp (emit s1 .final) t rounds with
      | (s, .waiting) => (s, Outcome.waiting)
      | (s, .raised x) => (s, .raisedFinal x)
      | (s, .done f) => match e with
        | .raised x => (s, .raised x)
        | _ => (s, .returned f)).1 := by
    intro he
    have hf := finalPhase_reach s1 t rounds (hm.2 he)
    generalize finalPhase sp (emit s1 .final) t rounds = y at hf
    obtain ⟨s2, f⟩ := y
    cases f with
    | waiting => exact ⟨.drain e, ⟨e, rfl⟩, hf⟩
    | raised x => exact ⟨.aborted e, ⟨e, rfl⟩, hf⟩
    | done f =>
      cases e with
      | running => exact absurd rfl he
      | stopped r => exact ⟨.done (.stopped r), .inr ⟨r, rfl⟩, hf⟩
      | flagged => exact ⟨.done .flagged, .inl rfl, hf⟩
      | raised x => exact ⟨.done (.raised x), rfl, hf⟩
  cases e with
  | running => exact ⟨.loop, rfl, hm.1 rfl⟩
  | stopped r => exact main (by simp)
  | flagged => exact main (by simp)
  | raised x => exact main (by simp)

/-- Induction over runs for a property that does not depend on the place in the program. -/
theorem Reach.inv {I : St → Prop} (h0 : I s0)
    (hemit : ∀ s e, I s → ((∃ r, e = .test r) ∨ e = .final) → I (emit s e))
    (hkill : ∀ s, I s → I (killCancelled sp s).1)
    (hmsg : ∀ s w m t, I s → w ∈ ids s → I (handleMsg sp s w m t).1)
    (hsave : ∀ s b, I s → I (saveK sp s b))
    (hcancel : ∀ s cs, I s → I (doOp s (.requestCancel cs)).1)
    (hpinfo : ∀ s p, I s → I { s with pinfo := p })
    (hgive : ∀ s w wk t, I s → simMaxGiven sp s.hist = false → I (handOut sp s wk w t).1)
    (hstop : ∀ s w t, I s → I (stopPersis sp s w t).1)
    (hend : ∀ s, I s → I (killWorkers s))
    {p : Ph} {s : St} (h : Reach sp P s0 p s) : I s := by
  induction h with
  | init => exact h0
  | test e _ _ ih => exact hemit _ _ ih (.inl ⟨_, rfl⟩)
  | stop e _ _ ih => exact hemit _ _ ih (.inl ⟨_, rfl⟩)
  | kill _ _ ih => exact hkill _ ih
  | killErr _ _ ih => exact hkill _ ih
  | mail w m t _ hw _ ih => exact hmsg _ _ _ _ ih hw
  | mailErr w m t _ hw _ ih => exact hmsg _ _ _ _ ih hw
  | save _ ih => exact hsave _ _ ih
  | allocErr cs _ _ ih => exact hcancel _ _ ih
  | allocFlag cs work p _ _ ih => exact hpinfo _ _ (hcancel _ _ ih)
  | allocOk cs work p t _ _ ih => exact hpinfo _ _ (hcancel _ _ ih)
  | give _ hs _ ih => exact hgive _ _ _ _ ih hs
  | giveErr _ hs _ ih => exact hgive _ _ _ _ ih hs
  | again _ _ _ ih => exact ih
  | noWork _ _ ih => exact ih
  | final _ ih => exact hemit _ _ ih (.inr rfl)
  | pstop t _ _ ih => exact hstop _ _ _ ih
  | pstopErr t _ _ ih => exact hstop _ _ _ ih
  | drain _ ih => exact ih
  | dmail w m t _ hw _ ih => exact hmsg _ _ _ _ ih hw
  | dmailErr w m t _ hw _ ih => exact hmsg _ _ _ _ ih hw
  | dsave _ ih => exact hsave _ _ ih
  | done p _ ih => exact hpinfo _ _ (hend _ (hsave _ _ ih))

end Verif.Manager
