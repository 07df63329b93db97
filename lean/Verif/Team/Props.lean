import Verif.Team.Model

/-!
C66: however a run ends, the team of workers is ended, the history is saved if asked for, and the caller is told.
-/
namespace Verif.Team

/-- A worker that can be ended: a process by the signal or by itself, a thread by itself only. -/
def WComm.Mortal (w : WComm) : Prop := match w.kind with
  | .process => w.obeys = true ∨ w.ends = true
  | .thread => w.ends = true

/-- An exception has left the worker's program, and this is known before the limit. -/
def WComm.Failed (w : WComm) : Prop :=
  w.finished = some false ∨ (w.finished = none ∧ ∃ a b, w.inTime = a ++ .result false :: b ∧ ∀ m ∈ a, m = .other)

theorem terminate_kind (w : WComm) (l : Bool) :
    (w.terminate l).1.kind = w.kind ∧ (w.terminate l).1.obeys = w.obeys ∧ (w.terminate l).1.ends = w.ends := by
  unfold WComm.terminate; (repeat' split) <;> exact ⟨rfl, rfl, rfl⟩

theorem terminate_ok {w w' : WComm} {l : Bool} (h : w.terminate l = (w', .ok)) : w'.alive = false := by
  unfold WComm.terminate at h
  (repeat' split at h) <;> simp only [Prod.mk.injEq, reduceCtorEq, and_false, and_true] at h
  all_goals subst h; first | rfl | assumption

theorem terminate_mortal {w : WComm} (h : w.Mortal) : (w.terminate false).2 = .ok := by
  unfold WComm.terminate
  split
  · rfl
  · rename_i hk
    have h : w.obeys = true ∨ w.ends = true := by simpa [WComm.Mortal, hk] using h
    rw [if_pos (by simpa using h)]
  · rename_i hk
    have h : w.ends = true := by simpa [WComm.Mortal, hk] using h
    rw [if_pos (by simpa using h)]

theorem terminate_limit (w : WComm) : (w.terminate true).2 = .ok ∨ (w.terminate true).2 = .timeout := by
  unfold WComm.terminate; (repeat' split) <;> simp_all

theorem drain_false {ms rest : List OMsg} (h : drain ms = (some false, rest)) :
    ∃ a b, ms = a ++ .result false :: b ∧ ∀ m ∈ a, m = .other := by
  induction ms with
  | nil => cases h
  | cons m ms ih =>
    cases m with
    | other =>
      obtain ⟨a, b, e, ha⟩ := ih h
      exact ⟨.other :: a, b, by rw [e]; rfl, by
        intro m hm; rcases List.mem_cons.mp hm with rfl | hm; rfl; exact ha m hm⟩
    | result ok => cases h; exact ⟨[], rest, rfl, by simp⟩

/-- How a call of `result` ends. -/
theorem result_cases (w : WComm) :
    ((w.result.2 = .ok ∨ w.result.2 = .remote ∧ w.Failed) ∧ w.result.1.alive = false ∨ w.result.2 = .timeout) ∧
    w.result.1.kind = w.kind ∧ w.result.1.obeys = w.obeys ∧ w.result.1.ends = w.ends := by
  obtain ⟨o, ms, hd⟩ : ∃ o ms, w.gather = (o, ms) := ⟨_, _, rfl⟩
  unfold WComm.result
  rw [hd]
  unfold WComm.gather at hd
  cases o with
  | none => exact ⟨.inr rfl, rfl, rfl, rfl⟩
  | some ok =>
    simp only []
    have hk := terminate_kind { w with inTime := ms, finished := some ok } true
    generalize ht : ({ w with inTime := ms, finished := some ok } : WComm).terminate true = t at hk
    have hl := terminate_limit { w with inTime := ms, finished := some ok }
    rw [ht] at hl
    obtain ⟨w', r⟩ := t
    rcases hl with rfl | rfl
    · refine ⟨.inl ⟨?_, terminate_ok ht⟩, hk⟩
      cases ok with
      | true => exact .inl rfl
      | false =>
        refine .inr ⟨rfl, ?_⟩
        cases hf : w.finished with
        | some b => rw [hf] at hd; cases hd; exact .inl hf
        | none => rw [hf] at hd; exact .inr ⟨hf, drain_false hd⟩
    · exact ⟨.inr rfl, hk⟩

theorem kill_cases {w : WComm} (h : w.Mortal) :
    w.kill.1.alive = false ∧ (w.kill.2 = .ok ∨ w.kill.2 = .remote ∧ w.Failed) := by
  obtain ⟨hr, hk, ho, he⟩ := result_cases w
  unfold WComm.kill
  generalize hw : w.result = r at *
  obtain ⟨w', r⟩ := r
  rcases hr with ⟨hr, ha⟩ | hr
  · rcases hr with rfl | ⟨rfl, hf⟩
    · exact ⟨ha, .inl rfl⟩
    · exact ⟨ha, .inr ⟨rfl, hf⟩⟩
  · simp only at hr; subst hr
    have hm : w'.Mortal := by unfold WComm.Mortal; simp only at hk ho he; rw [hk, ho, he]; exact h
    have h2 := terminate_mortal hm
    simp only
    generalize ht : w'.terminate false = t at *
    obtain ⟨w2, r2⟩ := t
    simp only at h2; subst h2
    exact ⟨terminate_ok ht, .inl rfl⟩

/-- C66, team: workers are ended one after the other.  If none of them has failed with an exception of its own, all are ended and the
clean-up comes back; otherwise it may end with the exception of one of them, all before it and itself are ended, and those after it
are as they were. -/
theorem C66_team_partial (ws : List WComm) (hm : ∀ w ∈ ws, w.Mortal) :
    ((killTeam ws).1.length = ws.length ∧
      ((killTeam ws).2 = .ok ∧ (∀ w ∈ (killTeam ws).1, w.alive = false) ∨
       (killTeam ws).2 = .remote ∧ ∃ k w, ws[k]? = some w ∧ w.Failed ∧
         (∀ v ∈ (killTeam ws).1.take (k + 1), v.alive = false) ∧ (killTeam ws).1.drop (k + 1) = ws.drop (k + 1))) ∧
    ((∀ w ∈ ws, ¬ w.Failed) → (killTeam ws).2 = .ok) := by
  induction ws with
  | nil => exact ⟨⟨rfl, .inl ⟨rfl, by simp [killTeam]⟩⟩, fun _ => rfl⟩
  | cons w ws ih =>
    obtain ⟨ha, hr⟩ := kill_cases (hm w (by simp))
    obtain ⟨⟨il, ih⟩, if'⟩ := ih (fun v hv => hm v (by simp [hv]))
    unfold killTeam
    generalize hk : w.kill = k at *
    obtain ⟨w', r⟩ := k
    simp only at ha
    rcases hr with hr | ⟨hr, hf⟩ <;> simp only at hr <;> subst hr
    · refine ⟨⟨by simp [il], ?_⟩, fun h => if' fun v hv => h v (by simp [hv])⟩
      rcases ih with ⟨h1, h2⟩ | ⟨h1, k, v, hv, hvf, h3, h4⟩
      · exact .inl ⟨h1, by simpa [ha] using h2⟩
      · refine .inr ⟨h1, k + 1, v, by simpa using hv, hvf, ?_, by simpa using h4⟩
        intro u hu
        simp only [List.take_succ_cons, List.mem_cons] at hu
        rcases hu with rfl | hu
        · exact ha
        · exact h3 u hu
    · refine ⟨⟨by simp, .inr ⟨rfl, 0, w, rfl, hf, ?_, by simp⟩⟩, fun h => absurd hf (h w (by simp))⟩
      intro u hu
      simp at hu; subst hu; exact ha

/-- The number of clean-ups among the effects. -/
def cleanups : List Eff → Nat
  | [] => 0
  | .cleanup :: es => cleanups es + 1
  | _ :: es => cleanups es

theorem after_value {r : Res} {f : Fin} {H : List History.Row} {flag : Nat} (h : after r f = .value H flag) : r = .ok ∧ f = .value H flag := by
  cases r <;> first | exact ⟨rfl, h⟩ | cases h

/-- C66, wrapper: the caller gets a history only if the manager's routine has returned and the team has been ended, namely the rows
produced, with the routine's flag.  After an exception, and only then, the rows produced are saved if asked for, before anything else.
The clean-up is done in every case, once unless MPI is to be aborted, and MPI is aborted only after an exception and the clean-up,
if asked for. -/
theorem C66_wrap (o : Opts) (h : History.Hist) (m : Main) (r : Res) :
    (∀ H flag, (wrap o h m r).2 = .value H flag ↔ m = .returns flag ∧ r = .ok ∧ H = History.trimH h) ∧
    (∀ rows n, Eff.dump rows n ∈ (wrap o h m r).1 ↔
      (∀ flag, m ≠ .returns flag) ∧ o.save = true ∧ rows = History.trimH h ∧ n = h.simEndedCount) ∧
    (∀ a rows n b, (wrap o h m r).1 = a ++ .dump rows n :: b → a = []) ∧
    1 ≤ cleanups (wrap o h m r).1 ∧
    ((o.abort && o.onAbort) = false → cleanups (wrap o h m r).1 = 1) ∧
    (Eff.abort ∈ (wrap o h m r).1 ↔ (∀ flag, m ≠ .returns flag) ∧ o.abort = true ∧ o.onAbort = true ∧ r = .ok) ∧
    (∀ a b, (wrap o h m r).1 = a ++ .abort :: b → Eff.cleanup ∈ a) := by
  have key : (∃ flag, m = .returns flag) ∨ ∀ flag, m ≠ .returns flag := by cases m <;> simp
  rcases key with ⟨flag, rfl⟩ | hne
  · refine ⟨?_, by simp [wrap], ?_, by simp [wrap, cleanups], by simp [wrap, cleanups], by simp [wrap], ?_⟩
    · intro H f
      constructor
      · intro e
        obtain ⟨rfl, e⟩ := after_value e
        cases e; exact ⟨rfl, rfl, rfl⟩
      · rintro ⟨e, rfl, rfl⟩; cases e; rfl
    · intro a rows n b e
      rcases a with _ | ⟨x, _ | _⟩ <;> simp [wrap] at e ⊢
    · intro a b e
      rcases a with _ | ⟨x, _ | _⟩ <;> simp [wrap] at e
  · have hw : wrap o h m r =
        (if o.abort && o.onAbort then
          match r with
          | .ok => ((if o.save then [Eff.dump (History.trimH h) h.simEndedCount] else []) ++ [.cleanup, .abort], .gone)
          | _ => ((if o.save then [Eff.dump (History.trimH h) h.simEndedCount] else []) ++ [.cleanup, .cleanup], after r .logged)
        else ((if o.save then [Eff.dump (History.trimH h) h.simEndedCount] else []) ++ [.cleanup], after r .logged)) := by
      cases m with
      | returns flag => exact absurd rfl (hne flag)
      | _ => rfl
    rw [hw]
    obtain ⟨sv, ab, oa⟩ := o
    refine ⟨?_, ?_, ?_, ?_, ?_, ?_, ?_⟩
    · intro H f
      refine ⟨fun e => ?_, fun e => absurd e.1 (hne f)⟩
      exfalso
      cases ab <;> cases oa <;> cases r <;> simp [after] at e
    · intro rows n
      cases sv <;> cases ab <;> cases oa <;> cases r <;> simp [hne]
    · intro a rows n b e
      cases sv <;> cases ab <;> cases oa <;> cases r <;> simp at e <;>
        rcases a with _ | ⟨x, _ | ⟨y, _ | ⟨z, _ | _⟩⟩⟩ <;> simp at e ⊢
    · cases sv <;> cases ab <;> cases oa <;> cases r <;> simp [cleanups]
    · cases sv <;> cases ab <;> cases oa <;> cases r <;> simp [cleanups]
    · cases sv <;> cases ab <;> cases oa <;> cases r <;> simp [hne]
    · intro a b e
      cases sv <;> cases ab <;> cases oa <;> cases r <;> simp at e <;>
        rcases a with _ | ⟨x, _ | ⟨y, _ | ⟨z, _ | _⟩⟩⟩ <;> simp at e ⊢ <;> simp_all

/-- C66, local runs: if the workers can be ended and none of them has failed with an exception of its own, then afterwards none is running,
and the caller gets the rows produced with the flag, or the manager's exception. -/
theorem C66_local_partial (o : Opts) (h : History.Hist) (m : Main) (team : List WComm) (hm : ∀ w ∈ team, w.Mortal)
    (hf : ∀ w ∈ team, ¬ w.Failed) :
    (∀ w ∈ (libELocal o h m team).1, w.alive = false) ∧
    ((∃ flag, m = .returns flag ∧ (libELocal o h m team).2.2 = .value (History.trimH h) flag) ∨
     ((∀ flag, m ≠ .returns flag) ∧ (libELocal o h m team).2.2 = .logged)) := by
  obtain ⟨⟨_, hc⟩, hok⟩ := C66_team_partial team hm
  have hok := hok hf
  refine ⟨?_, ?_⟩
  · rcases hc with ⟨_, hc⟩ | ⟨hr, _⟩
    · exact hc
    · rw [hok] at hr; cases hr
  · unfold libELocal
    simp only [hok]
    cases m with
    | returns flag => exact .inl ⟨flag, rfl, rfl⟩
    | _ => right; refine ⟨by simp, ?_⟩; cases o.save <;> simp [wrap, after]

/-! ### Cases -/

/-- A process that has been stopped properly, one that hangs in a simulation, and one whose program raised. -/
def exDone : WComm := ⟨.process, [.other, .result true], none, true, true, true, true, true⟩
def exBusy : WComm := ⟨.process, [.other], none, true, false, false, true, true⟩
def exRaised : WComm := ⟨.process, [.result false], none, true, true, true, true, true⟩
/-- A thread in a long simulation, and one in a simulation that never ends. -/
def exSlow : WComm := ⟨.thread, [], none, true, false, true, false, false⟩
def exStuck : WComm := ⟨.thread, [], none, true, false, false, false, false⟩

/-- The hypotheses of the theorems hold for a team of three that is ended. -/
example : (∀ w ∈ [exDone, exBusy, exSlow], w.Mortal) ∧ (killTeam [exDone, exBusy, exSlow]).2 = .ok ∧
    (killTeam [exDone, exBusy, exSlow]).1.map (·.alive) = [false, false, false] := by
  refine ⟨?_, by decide, by decide⟩
  simp [WComm.Mortal, exDone, exBusy, exSlow]

example : ∀ w ∈ [exDone, exBusy, exSlow], ¬ w.Failed := by
  intro w hw
  simp only [List.mem_cons, List.not_mem_nil, or_false] at hw
  rcases hw with rfl | rfl | rfl
  · rintro (h | ⟨_, a, b, h, _⟩)
    · cases h
    · have : OMsg.result false ∈ exDone.inTime := by rw [h]; simp
      revert this; decide
  · rintro (h | ⟨_, a, b, h, _⟩)
    · cases h
    · have : OMsg.result false ∈ exBusy.inTime := by rw [h]; simp
      revert this; decide
  · rintro (h | ⟨_, a, b, h, _⟩)
    · cases h
    · have : OMsg.result false ∈ exSlow.inTime := by rw [h]; simp
      revert this; decide

/-- Without the hypothesis on failures C66 is false: an exception that left a worker's program (from its constructor, or from the copying
back of directories at its end: worker.py:117, 427-432) ends the clean-up, the workers after it keep running, and the caller gets
that exception even if the run was fine. -/
theorem C66_left_witness (o : Opts) (h : History.Hist) (flag : Nat) :
    (libELocal o h (.returns flag) [exDone, exRaised, exBusy]).1.map (·.alive) = [false, false, true] ∧
    (libELocal o h (.returns flag) [exDone, exRaised, exBusy]).2.2 = .remote := by
  have h1 : (killTeam [exDone, exRaised, exBusy]).1.map (·.alive) = [false, false, true] := by decide
  have h2 : (killTeam [exDone, exRaised, exBusy]).2 = .remote := by decide
  refine ⟨h1, ?_⟩
  unfold libELocal
  simp only [h2]
  rfl

/-- A thread cannot be ended: the clean-up waits for it for ever, whatever `worker_timeout` says. -/
theorem C66_thread_witness (o : Opts) (h : History.Hist) (m : Main) :
    (libELocal o h m [exStuck]).2.2 = .stuck := by
  have : (killTeam [exStuck]).2 = .hang := by decide
  unfold libELocal
  simp only [this]
  cases m <;> simp [wrap, after]

/-- A running worker that can be ended neither by asking nor by force. -/
def WComm.Immortal (w : WComm) : Prop :=
  w.alive = true ∧ w.ends = false ∧ w.endsInTime = false ∧ (w.kind = .process → w.obeys = false ∧ w.obeysInTime = false)

theorem terminate_immortal {w : WComm} (h : w.Immortal) (l : Bool) : w.terminate l = (w, if l then .timeout else .hang) := by
  obtain ⟨h1, h2, h3, h4⟩ := h
  unfold WComm.terminate
  rw [h1]
  cases hk : w.kind with
  | thread => simp [h2, h3]
  | process => simp [h2, h3, (h4 hk).1, (h4 hk).2]

theorem kill_immortal {w : WComm} (h : w.Immortal) : w.kill.2 = .hang ∧ w.kill.1.alive = true := by
  obtain ⟨o, ms, hd⟩ : ∃ o ms, w.gather = (o, ms) := ⟨_, _, rfl⟩
  unfold WComm.kill WComm.result
  rw [hd]
  cases o with
  | none =>
    have hi : ({ w with inTime := ms } : WComm).Immortal := h
    simp only [terminate_immortal hi]
    exact ⟨rfl, h.1⟩
  | some ok =>
    have hi : ({ w with inTime := ms, finished := some ok } : WComm).Immortal := h
    simp only [terminate_immortal hi, if_true]
    exact ⟨rfl, h.1⟩

/-- C66, a worker that cannot be ended (such as a thread that does not come back): also if it has delivered its result, the clean-up
waits for it for ever, and the workers after it are not ended. -/
theorem C66_stuck (ws : List WComm) (w : WComm) (vs : List WComm) (hm : ∀ v ∈ ws, v.Mortal) (hf : ∀ v ∈ ws, ¬ v.Failed) (hw : w.Immortal) :
    (killTeam (ws ++ w :: vs)).2 = .hang ∧ ∃ us w', (killTeam (ws ++ w :: vs)).1 = us ++ w' :: vs ∧ us.length = ws.length ∧
      (∀ v ∈ us, v.alive = false) ∧ w'.alive = true := by
  induction ws with
  | nil =>
    obtain ⟨h1, h2⟩ := kill_immortal hw
    simp only [List.nil_append, killTeam]
    generalize hk : w.kill = r at *
    obtain ⟨w', r⟩ := r
    simp only at h1 h2; subst h1
    exact ⟨rfl, [], w', rfl, rfl, by simp, h2⟩
  | cons v ws ih =>
    obtain ⟨h1, us, w', h2, h3, h4, h5⟩ := ih (fun v hv => hm v (List.mem_cons_of_mem _ hv)) (fun v hv => hf v (List.mem_cons_of_mem _ hv))
    obtain ⟨ha, hr⟩ := kill_cases (hm v (by simp))
    have hr := hr.resolve_right (fun h => hf v (by simp) h.2)
    simp only [List.cons_append, killTeam]
    generalize hk : v.kill = r at *
    obtain ⟨v', r⟩ := r
    simp only at hr ha; subst hr
    simp only
    refine ⟨h1, v' :: us, w', by rw [h2]; rfl, by simp [h3], ?_, h5⟩
    intro x hx
    rcases List.mem_cons.mp hx with rfl | hx
    · exact ha
    · exact h4 x hx

/-- Such a worker: a thread that has sent its result and does not come to its end. -/
example : ({ exStuck with inTime := [.result true] } : WComm).Immortal := by simp [WComm.Immortal, exStuck]

end Verif.Team
