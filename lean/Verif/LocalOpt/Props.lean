import Verif.LocalOpt.Keep

/-!
C65: the exchange between `LocalOptInterfacer` and the process of its optimizer, for every
optimizer, every sequence of calls and every interleaving of the two processes and their feeder
threads.
-/

namespace Verif.LocalOpt

variable {X F : Type} {σ : Sys X F}

/-- After given values, an optimizer has one thing to say. -/
theorem Says.unique {vs : List (X × F)} {m m' : Msg X F} (h : Says σ vs m) (h' : Says σ vs m') :
    m = m' := by
  cases h with
  | ok ht => exact (h'.of_talk ht).symm
  | wrong ht ho hs =>
    generalize hw : _ ++ [_] = w at h'
    cases h' with
    | ok ht' =>
      subst hw
      obtain ⟨x', _, ho', hs'⟩ := ht'.unsnoc
      rw [ho] at ho'; cases ho'; rw [hs] at hs'; cases hs'
    | wrong => rfl

/-- C65.  The answers: what the parent takes from the queue the `k`-th time is what the optimizer
says after the first `k` values that were passed to `iterate` - its next point, its end, or an
error - and never one of the parent's own messages.  There is one answer for the constructor and
one for every call of `iterate` that has come back. -/
theorem C65_answers {s : St X F} (h : Reach σ s) :
    (∀ (k : Nat) (m : Msg X F), s.ans[k]? = some m →
      Says σ (s.sent.take k) m ∧ ∀ x f, m ≠ .val x f) ∧
    s.sent.length ≤ s.ans.length ∧ s.ans.length ≤ s.sent.length + 1 ∧
    (s.ppc = .idle → s.ans.length = s.sent.length + 1) := by
  obtain ⟨hok, ha⟩ := h.inv
  refine ⟨fun k m hk => ⟨ha k m hk, fun x f => (ha k m hk).not_val x f⟩, ?_⟩
  cases hok with
  | idle _ _ _ _ _ _ _ hn => omega
  | running hp => rcases hp with hp | hp <;> simp_all
  | answering hp => rcases hp with hp | hp <;> simp_all
  | telling hp => rcases hp with hp | hp <;> simp_all
  | told hp => rcases hp with (hp | hp) | hp | hp <;> simp_all
  | called hp => rcases hp with hp | hp <;> simp_all
  | _ => simp_all

/-- C65.  The values: the optimizer's calls have returned the values passed to `iterate`, in that
order, none lost and none twice, at most the last one still missing; and each was for the point
that the optimizer asked for. -/
theorem C65_values {s : St X F} (h : Reach σ s) :
    s.got <+: s.sent ∧ s.sent.length ≤ s.got.length + 1 ∧ Talk σ s.got := by
  obtain ⟨hok, -⟩ := h.inv
  have hg : ∃ l, s.sent = s.got ++ l ∧ l.length ≤ 1 := by
    cases hok with
    | answering _ _ _ _ _ _ hg => exact hg
    | telling _ _ _ _ _ _ hg => exact hg
    | told _ _ _ _ _ _ hg => exact hg
    | failed _ _ _ _ hg => exact hg
    | running _ _ _ _ _ hs => exact ⟨[], by simp [hs], by simp⟩
    | idle _ _ _ _ hs => exact ⟨[], by simp [hs], by simp⟩
    | joining _ _ _ hs => exact ⟨[], by simp [hs], by simp⟩
    | closed _ _ _ hg => exact hg
    | value _ _ _ _ _ hs => exact ⟨_, hs, by simp⟩
    | gotten _ _ _ _ hs => exact ⟨_, hs, by simp⟩
    | checking _ _ _ _ _ hs => exact ⟨_, hs, by simp⟩
    | called _ _ _ _ hs => exact ⟨_, hs, by simp⟩
    | sending _ _ _ _ _ hs => exact ⟨_, hs, by simp⟩
  obtain ⟨l, hl, hl1⟩ := hg
  refine ⟨⟨l, hl.symm⟩, by rw [hl]; simp; omega, ?_⟩
  cases hok <;> assumption

theorem after_confused (m : Msg X F) : after m ≠ .confused := by cases m <;> simp [after]

theorem after_tell (m m' : Msg X F) : after m ≠ .tell m' := by cases m <;> simp [after]

/-- C65.  One message: the queue and the buffers of its two feeder threads never hold more than one
message together, and the child never takes anything but a value passed to `iterate`. -/
theorem C65_one {s : St X F} (h : Reach σ s) :
    s.pbuf.length + s.pipe.length + s.cbuf.length ≤ 1 ∧ s.cpc ≠ .confused := by
  obtain ⟨hok, -⟩ := h.inv
  cases hok with
  | value _ hc hq =>
    obtain ⟨h1, h2 | h2⟩ := hq <;> rcases hc with hc | hc <;> simp [h1, h2, hc]
  | sending _ hc hq => obtain ⟨h1, h2 | h2⟩ := hq <;> simp [h1, h2, hc]
  | telling _ hc hq => obtain ⟨h1, h2 | h2⟩ := hq <;> simp [h1, h2, hc]
  | told _ hc hq =>
    refine ⟨by obtain ⟨h1, h2 | h2⟩ := hq <;> simp [h1, h2], fun hx => ?_⟩
    rcases hc with hc | hc
    · exact after_confused _ (hc.symm.trans hx)
    · rw [hx] at hc; cases hc.1
  | joining _ hc hq => rcases hc with hc | hc <;> simp_all [Empty]
  | failed _ hc hq => rcases hc with hc | hc | ⟨x, hc, _⟩ <;> simp_all [Empty]
  | _ => simp_all [Empty]

/-- C65.  How a call comes back: with a point if and only if the optimizer asks for it; as the end
of the run only if the optimizer has ended; with an exception only if the optimizer raised one or
was given a value for another point than it asked for - or, in the constructor, if its first point
is not the starting point. -/
theorem C65_outcome {s : St X F} (h : Reach σ s) :
    (s.ppc = .idle → ∃ x, s.ans.getLast? = some (.pt x) ∧ σ.opt s.sent = .ask x ∧ Talk σ s.sent) ∧
    (s.ppc = .join → ∃ x b, s.ans.getLast? = some (.conv x b) ∧ σ.opt s.sent = .stop x b ∧
      Talk σ s.sent) ∧
    (s.ppc = .failed →
      (Talk σ s.sent ∧ σ.opt s.sent = .raise) ∨
      (∃ vs v x, s.sent = vs ++ [v] ∧ Talk σ vs ∧ σ.opt vs = .ask x ∧ σ.same x v.1 = false) ∨
      (s.sent = [] ∧ ∀ x, σ.opt [] = .ask x → σ.same0 x σ.x0 = false)) := by
  obtain ⟨hok, ha⟩ := h.inv
  have hlast : s.ans.length = s.sent.length + 1 → ∃ m, s.ans.getLast? = some m ∧ Says σ s.sent m := by
    intro hn
    have hl : s.ans.getLast? = s.ans[s.sent.length]? := by
      rw [List.getLast?_eq_getElem?, hn]; rfl
    obtain ⟨m, hm⟩ : ∃ m, s.ans[s.sent.length]? = some m :=
      ⟨_, List.getElem?_eq_getElem (by omega)⟩
    exact ⟨m, by rw [hl, hm], by have := ha _ _ hm; rwa [List.take_length] at this⟩
  cases hok with
  | idle hp hc hq hcc hs ho ht hn =>
    obtain ⟨m, hm, hsays⟩ := hlast hn
    have ht' : Talk σ s.sent := by rw [hs]; exact ht
    have ho' := ho; rw [← hs] at ho'
    have := hsays.of_talk ht'
    rw [ho'] at this; subst this
    exact ⟨fun _ => ⟨_, hm, ho', ht'⟩, by simp [hp], by simp [hp]⟩
  | joining hp hc hq hs ho ht hn =>
    obtain ⟨m, hm, hsays⟩ := hlast hn
    have ht' : Talk σ s.sent := by rw [hs]; exact ht
    have ho' := ho; rw [← hs] at ho'
    have := hsays.of_talk ht'
    rw [ho'] at this; subst this
    exact ⟨by simp [hp], fun _ => ⟨_, _, hm, ho', ht'⟩, by simp [hp]⟩
  | failed hp hc hq hcc hg ht hn hl =>
    refine ⟨by simp [hp], by simp [hp], fun _ => ?_⟩
    rcases hl with hl | hl
    · have hsays := ha _ _ hl
      rw [List.take_length] at hsays
      generalize hw : s.sent = w at hsays
      generalize hmm : Msg.err = m at hsays
      cases hsays with
      | ok ht =>
        left; refine ⟨ht, ?_⟩
        cases ho : σ.opt w with
        | raise => rfl
        | _ => rw [ho] at hmm; cases hmm
      | wrong ht ho hs => exact .inr (.inl ⟨_, _, _, rfl, ht, ho, hs⟩)
    · exact .inr (.inr hl)
  | running hp => rcases hp with hp | ⟨hp, _⟩ <;> simp [hp]
  | answering hp => rcases hp with hp | ⟨hp, _⟩ <;> simp [hp]
  | telling hp => rcases hp with hp | ⟨hp, _⟩ <;> simp [hp]
  | told hp => rcases hp with (hp | ⟨hp, _⟩) | hp | ⟨hp, _⟩ <;> simp [hp]
  | called hp => rcases hp with hp | ⟨hp, _⟩ <;> simp [hp]
  | value hp => simp [hp]
  | gotten hp => simp [hp]
  | checking hp => simp [hp]
  | sending hp => simp [hp]
  | closed hp => simp [hp]

/-! ### The calls come back -/

/-- How many steps the parent has left in its call (with room for a feeder step). -/
def prank : PPc X F → Nat
  | .clear _ => 8
  | .put _ => 7
  | .set => 5
  | .wait => 4
  | .initWait => 4
  | .get => 3
  | .initGet => 3
  | .join => 1
  | _ => 0

/-- How many steps the child has left until it waits for the parent, or has ended. -/
def crank (s : St X F) : Nat :=
  match s.cpc with
  | .wait _ => if s.ccr = true ∨ 5 ≤ prank s.ppc then 10 else 0
  | .get _ => 9
  | .clear _ _ => 8
  | .check _ _ => 7
  | .run => 6
  | .out _ => 5
  | .tell _ => 3
  | .exiting => 1
  | .dead => 0
  | .confused => 0

def mu (s : St X F) : Nat := prank s.ppc + crank s + s.pbuf.length + s.cbuf.length

theorem mu_le {s : St X F} (h : Reach σ s) : mu s ≤ 18 := by
  have hone := (C65_one h).1
  obtain ⟨hok, -⟩ := h.inv
  cases hok with
  | value hp hc hq => rcases hc with hc | hc <;> simp [mu, crank, hp, hc, prank] <;> (repeat' split) <;> omega
  | gotten hp hc hq => simp [mu, crank, hp, hc, prank]; omega
  | checking hp hc hq => simp [mu, crank, hp, hc, prank]; omega
  | running hp hc hq => rcases hp with hp | ⟨hp, _⟩ <;> simp [mu, crank, hp, hc, prank] <;> omega
  | answering hp hc hq => rcases hp with hp | ⟨hp, _⟩ <;> simp [mu, crank, hp, hc, prank] <;> omega
  | telling hp hc hq => rcases hp with hp | ⟨hp, _⟩ <;> simp [mu, crank, hp, hc, prank] <;> omega
  | told hp hc hq hpc hcc =>
    rename_i m
    have : crank s ≤ 10 := by unfold crank; split <;> (repeat' split) <;> omega
    rcases hp with (hp | ⟨hp, _⟩) | hp | ⟨hp, _⟩ <;> simp [mu, hp, prank] <;> omega
  | idle hp hc hq hcc => simp [mu, crank, hp, hc, hcc, prank]; omega
  | called hp hc hq => rcases hp with hp | ⟨hp, _⟩ <;> simp [mu, crank, hp, hc, prank, hq.1, hq.2.2]
  | sending hp hc hq => simp [mu, crank, hp, hc, prank]; omega
  | joining hp hc hq => rcases hc with hc | hc <;> simp [mu, crank, hp, hc, prank] <;> omega
  | closed hp hc hq => simp [mu, crank, hp, hc, prank]; omega
  | failed hp hc hq hcc =>
    rcases hc with hc | hc | ⟨x, hc, _⟩ <;> simp [mu, crank, hp, hc, hcc, prank] <;> omega

theorem mu_step {s s' : St X F} (h : Reach σ s) (hs : Step σ s .tau s') : mu s' < mu s := by
  have hok := h.inv.1
  cases hs with
  | initWait hp hr =>
    have : crank { s with ppc := PPc.initGet } = crank s := by simp [crank, hp, prank]
    simp only [mu, this, prank, hp]; omega
  | initGet hp hq =>
    rename_i m q
    have h1 : crank { s with ppc := firstPc σ m, pipe := q, ans := s.ans ++ [m] } ≤ crank s := by
      have : ¬ 5 ≤ prank (firstPc σ m) := by unfold firstPc; (repeat' split) <;> simp [prank]
      simp only [crank, this]; cases s.cpc <;> simp [hp, prank]
    have h2 : prank (firstPc σ m) ≤ 0 := by unfold firstPc; (repeat' split) <;> simp [prank]
    have h3 : prank s.ppc = 3 := by simp [hp, prank]
    simp only [mu] at *; omega
  | pClear hp =>
    have : ∀ v, crank { s with ppc := PPc.put v, pcr := false } = crank s := by
      intro v; simp [crank, hp, prank]
    simp only [mu, this, prank, hp]; omega
  | pPut hp =>
    rename_i v
    have : crank { s with ppc := PPc.set, pbuf := s.pbuf ++ [.val v.1 v.2] } = crank s := by
      simp [crank, hp, prank]
    simp only [mu, this, prank, hp, List.length_append, List.length_singleton]; omega
  | pSet hp =>
    have : crank { s with ppc := PPc.wait, ccr := true } = crank s := by simp [crank, hp, prank]
    simp only [mu, this, prank, hp]; omega
  | pWait hp hr =>
    have : crank { s with ppc := PPc.get } = crank s := by simp [crank, hp, prank]
    simp only [mu, this, prank, hp]; omega
  | pGet hp hq =>
    rename_i m q
    have h0 : prank (nextPc m) ≤ 1 := by cases m <;> simp [nextPc, prank]
    have h1 : crank { s with ppc := nextPc m, pipe := q, ans := s.ans ++ [m] } ≤ crank s := by
      have : ¬ 5 ≤ prank (nextPc m) := by omega
      simp only [crank, this]; cases s.cpc <;> simp [hp, prank]
    have h3 : prank s.ppc = 3 := by simp [hp, prank]
    simp only [mu] at *; omega
  | pJoin hp hd => simp [mu, crank, hd, prank, hp]
  | cRun hc => simp [mu, crank, hc] <;> omega
  | cPut hc => simp [mu, crank, hc] <;> omega
  | cTell hc =>
    rename_i m
    have h1 : crank { s with cpc := after m, pcr := true } ≤ 1 := by
      cases hok with
      | telling hp hc' hq hpc hcc =>
        cases m <;> rcases hp with hp | ⟨hp, _⟩ <;> simp [crank, after, hcc, hp, prank]
      | told hp hc' =>
        rcases hc' with hc' | hc'
        · exact absurd (hc'.symm.trans hc) (after_tell _ _)
        · rw [hc] at hc'; cases hc'.1
      | value _ hc' => rcases hc' with hc' | hc' <;> simp_all
      | joining _ hc' => rcases hc' with hc' | hc' <;> simp_all
      | failed _ hc' => rcases hc' with hc' | hc' | ⟨x, hc', _⟩ <;> simp_all
      | _ => simp_all
    have h2 : crank s = 3 := by simp [crank, hc]
    simp only [mu] at *; omega
  | cWait hc hr => simp [mu, crank, hc, hr] <;> omega
  | cGet hc hq =>
    rename_i x m q
    have h1 : crank { s with cpc := received x m, pipe := q } ≤ 8 := by
      cases m <;> simp [crank, received]
    have h2 : crank s = 9 := by simp [crank, hc]
    simp only [mu] at *; omega
  | cClear hc => simp [mu, crank, hc] <;> omega
  | cCheck hc => simp [mu, crank, hc] <;> omega
  | cFail hc => simp [mu, crank, hc] <;> omega
  | cExit hc hb => simp [mu, crank, hc] <;> omega
  | pFeed hb => simp [mu, crank, hb] <;> omega
  | cFeed hb => simp [mu, crank, hb] <;> omega

theorem Run.bound {n : Nat} {s s' : St X F} (r : Run σ n s s') :
    Reach σ s → n + mu s' ≤ mu s ∧ Reach σ s' := by
  induction r with
  | nil => exact fun h => ⟨by omega, h⟩
  | cons hs _ ih =>
    intro h
    have h' := h.step hs (by nofun)
    have := mu_step h hs
    exact ⟨by have := (ih h').1; omega, (ih h').2⟩

/-- Nothing can move. -/
def Stuck (σ : Sys X F) (s : St X F) : Prop := ∀ s', ¬ Step σ s .tau s'

/-- C65.  The calls come back: whatever the scheduler does, after at most 18 steps the constructor
or the call of `iterate` has come back, and the two processes have come to rest in one of these
ways: the parent has its next point and the child waits for the value there; the run is over,
`is_running` is False and the child has ended; an exception left the call and the child has ended;
or the exception is the constructor's, because the optimizer's first point is not the starting
point, and the child still waits. -/
theorem C65_returns {n : Nat} {s s' : St X F} (h : Reach σ s) (r : Run σ n s s') :
    n ≤ 18 ∧ (Stuck σ s' →
      (s'.ppc = .idle ∧ ∃ x, s'.cpc = .wait x ∧ σ.opt s'.sent = .ask x ∧ s'.got = s'.sent) ∨
      (s'.ppc = .closed ∧ s'.cpc = .dead) ∨
      (s'.ppc = .failed ∧ s'.cpc = .dead) ∨
      (s'.ppc = .failed ∧ s'.sent = [] ∧
        ∃ x, s'.cpc = .wait x ∧ σ.opt [] = .ask x ∧ σ.same0 x σ.x0 = false)) := by
  obtain ⟨hb, h'⟩ := r.bound h
  refine ⟨by have := mu_le h; omega, fun hst => ?_⟩
  have hok := h'.inv.1
  cases hok with
  | value hp hc hq hpc hcc hs ho ht hn =>
    exfalso
    rcases hc with hc | hc
    · exact hst _ (.cWait hc hcc)
    · obtain ⟨_, h1 | h1⟩ := hq
      · exact hst _ (.pFeed h1.1)
      · exact hst _ (.cGet hc h1.2)
  | gotten hp hc => exact absurd (.cClear hc) (hst _)
  | checking hp hc =>
    rename_i x v _ _ _ _ _ _ _
    cases hx : σ.same x v.1
    · exact absurd (.cFail hc hx) (hst _)
    · exact absurd (.cCheck hc hx) (hst _)
  | running hp hc => exact absurd (.cRun hc) (hst _)
  | answering hp hc => exact absurd (.cPut hc) (hst _)
  | telling hp hc => exact absurd (.cTell hc) (hst _)
  | told hp hc hq hpc hcc =>
    exfalso
    rcases hp with (hp | ⟨hp, _⟩) | hp | ⟨hp, _⟩
    · exact hst _ (.pWait hp hpc)
    · exact hst _ (.initWait hp hpc)
    · obtain ⟨_, h1 | h1⟩ := hq
      · exact hst _ (.cFeed h1.1)
      · exact hst _ (.pGet hp h1.2)
    · obtain ⟨_, h1 | h1⟩ := hq
      · exact hst _ (.cFeed h1.1)
      · exact hst _ (.initGet hp h1.2)
  | idle hp hc hq hcc hs ho => exact .inl ⟨hp, _, hc, by rw [hs]; exact ho, hs.symm⟩
  | called hp hc =>
    rcases hp with hp | hp
    · exact absurd (.pClear hp) (hst _)
    · exact absurd (.pPut hp.1) (hst _)
  | sending hp hc => exact absurd (.pSet hp) (hst _)
  | joining hp hc hq =>
    rcases hc with hc | hc
    · exact absurd (.cExit hc hq.2.2) (hst _)
    · exact absurd (.pJoin hp hc) (hst _)
  | closed hp hc => exact .inr (.inl ⟨hp, hc⟩)
  | failed hp hc hq =>
    rcases hc with hc | hc | ⟨x, hc, h1, h2, h3⟩
    · exact absurd (.cExit hc hq.2.2) (hst _)
    · exact .inr (.inr (.inl ⟨hp, hc⟩))
    · exact .inr (.inr (.inr ⟨hp, h1, x, hc, h2, h3⟩))

end Verif.LocalOpt
