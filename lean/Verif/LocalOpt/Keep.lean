import Verif.LocalOpt.Inv

/-! The invariant is kept by every step. -/

namespace Verif.LocalOpt

variable {X F : Type} {σ : Sys X F}

theorem Req.msg_pt {r : Req X} {x : X} (h : (r.msg : Msg X F) = .pt x) : r = .ask x := by
  cases r <;> simp_all [Req.msg]

theorem Req.msg_conv {r : Req X} {x : X} {b : Nat} (h : (r.msg : Msg X F) = .conv x b) :
    r = .stop x b := by
  cases r <;> simp_all [Req.msg]

/-- Steps of the phases in which the message that is there is the parent's. -/
theorem Ok.step_value {s s' : St X F} {e : Ev X F} {x : X} {v : X × F} (hs' : Step σ s e s')
    (he : e ≠ .crash) (hp : s.ppc = .wait) (hc : s.cpc = .wait x ∨ s.cpc = .get x)
    (hq : AtP s (.val v.1 v.2)) (hpc : s.pcr = false) (hcc : s.ccr = true)
    (hs : s.sent = s.got ++ [v]) (ho : σ.opt s.got = .ask x) (ht : Talk σ s.got)
    (hn : s.ans.length = s.sent.length) : Ok σ s' := by
  obtain ⟨hb, hq⟩ := hq
  cases hs' with
  | cWait h hr =>
    rcases hc with hc | hc <;> rw [hc] at h <;> cases h
    exact .value hp (.inr rfl) ⟨hb, hq⟩ hpc hcc hs ho ht hn
  | cGet h hq' =>
    rcases hc with hc | hc <;> rw [hc] at h <;> cases h
    rcases hq with ⟨_, hq⟩ | ⟨h1, hq⟩ <;> rw [hq] at hq' <;> cases hq'
    exact .gotten hp rfl ⟨h1, rfl, hb⟩ hpc hs ho ht hn
  | pFeed h =>
    rcases hq with ⟨h1, hq⟩ | ⟨h1, hq⟩ <;> rw [h1] at h <;> cases h
    exact .value hp hc ⟨hb, .inr ⟨rfl, by simp [hq]⟩⟩ hpc hcc hs ho ht hn
  | crash => exact absurd rfl he
  | _ => simp_all

theorem Ok.step {s s' : St X F} {e : Ev X F} (h : Ok σ s) (hs' : Step σ s e s')
    (he : e ≠ .crash) : Ok σ s' := by
  cases h with
  | value hp hc hq hpc hcc hs ho ht hn => exact Ok.step_value hs' he hp hc hq hpc hcc hs ho ht hn
  | gotten hp hc hq hpc hs ho ht hn =>
    cases hs' with
    | cClear h =>
      rw [hc] at h; cases h
      exact .checking hp rfl hq hpc rfl hs ho ht hn
    | crash => exact absurd rfl he
    | _ => simp_all [Empty]
  | checking hp hc hq hpc hcc hs ho ht hn =>
    cases hs' with
    | cCheck h hc' =>
      rw [hc] at h; cases h
      exact .running (.inl hp) rfl hq hpc hcc hs (.snoc ht ho hc') hn
    | cFail h hc' =>
      rw [hc] at h; cases h
      exact .answering (.inl hp) rfl hq hpc hcc (fun h => absurd rfl h) ⟨_, hs, Nat.le_refl _⟩ ht
        (by show Says σ s.sent _; rw [hs]; exact .wrong ht ho hc') hn
    | crash => exact absurd rfl he
    | _ => simp_all [Empty]
  | running hp hc hq hpc hcc hs ht hn =>
    cases hs' with
    | cRun h =>
      exact .answering hp rfl hq hpc hcc (fun _ => hs) ⟨[], by simpa using hs, Nat.zero_le _⟩ ht
        (by show Says σ s.sent _; rw [hs]; exact .ok ht) hn
    | crash => exact absurd rfl he
    | _ => rcases hp with hp | ⟨hp, _⟩ <;> simp_all [Empty]
  | answering hp hc hq hpc hcc hs hg ht hm hn =>
    cases hs' with
    | cPut h =>
      rw [hc] at h; cases h
      exact .telling hp rfl ⟨hq.1, .inl ⟨by simp [hq.2.2], hq.2.1⟩⟩ hpc hcc hs hg ht hm hn
    | crash => exact absurd rfl he
    | _ => rcases hp with hp | ⟨hp, _⟩ <;> simp_all [Empty]
  | telling hp hc hq hpc hcc hs hg ht hm hn =>
    cases hs' with
    | cTell h =>
      rw [hc] at h; cases h
      exact .told (.inl hp) (.inl rfl) hq rfl hcc hs hg ht hm hn
    | cFeed h =>
      obtain ⟨hb, hq | hq⟩ := hq <;> rw [hq.1] at h <;> cases h
      exact .telling hp hc ⟨hb, .inr ⟨rfl, by simp [hq.2]⟩⟩ hpc hcc hs hg ht hm hn
    | crash => exact absurd rfl he
    | _ => rcases hp with hp | ⟨hp, _⟩ <;> simp_all [AtC]
  | told hp hc hq hpc hcc hs hg ht hm hn =>
    rename_i m
    have hwait : ∀ x, s.cpc = .wait x → m = .pt x := by
      intro x hx
      rcases hc with hc | hc
      · rw [hx] at hc; cases m <;> simp_all [after]
      · rw [hx] at hc; cases hc.1
    have hend : (∀ x, m ≠ .pt x) → s.cpc = .exiting ∨ s.cpc = .dead := by
      intro hx
      rcases hc with hc | hc
      · cases m <;> simp_all [after]
      · exact .inr hc.1
    have hcs : (∃ x, s.cpc = .wait x) ∨ s.cpc = .exiting ∨ s.cpc = .dead := by
      rcases hc with hc | hc
      · cases m <;> simp_all [after]
      · exact .inr (.inr hc.1)
    cases hs' with
    | initWait h hr =>
      refine .told (.inr (.inr ⟨rfl, ?_⟩)) hc hq hpc hcc hs hg ht hm hn
      rcases hp with (hp | hp) | hp | hp <;> simp_all
    | initGet h hq' =>
      obtain ⟨hb, hq | hq⟩ := hq <;> rw [hq.2] at hq' <;> cases hq'
      have hsent : s.sent = [] := by rcases hp with (hp | hp) | hp | hp <;> simp_all
      have hgot : s.got = [] := by obtain ⟨l, hl, -⟩ := hg; rw [hsent] at hl; simp at hl; exact hl.1
      cases hmm : m with
      | pt x =>
        subst hmm
        have ho : σ.opt [] = .ask x := by
          rw [hsent] at hm; exact Req.msg_pt (Says.of_talk hm .nil).symm
        have hcw : s.cpc = .wait x := by
          rcases hc with hc | hc
          · exact hc
          · exact absurd rfl (hc.2 x)
        by_cases h0 : σ.same0 x σ.x0 = true
        · exact .idle (x := x) (by simp [firstPc, h0]) hcw ⟨hb, rfl, hq.1⟩ hcc (by simp [hsent, hgot])
            (by show σ.opt s.got = _; rw [hgot]; exact ho) ht (by simp [hn])
        · exact .failed (by simp [firstPc, h0]) (.inr (.inr ⟨x, hcw, hsent, ho, by simpa using h0⟩))
            ⟨hb, rfl, hq.1⟩ hcc hg ht (by simp [hn])
            (.inr ⟨hsent, fun x' hx' => by rw [ho] at hx'; cases hx'; simpa using h0⟩)
      | conv x b =>
        subst hmm
        exact .failed rfl (by rcases hend (by nofun) with h | h <;> simp [h]) ⟨hb, rfl, hq.1⟩ hcc hg ht
          (by simp [hn]) (.inr ⟨hsent, fun x' hx' => by
            rw [hsent] at hm
            have := Says.of_talk hm .nil
            rw [hx'] at this; cases this⟩)
      | err =>
        subst hmm
        exact .failed rfl (by rcases hend (by nofun) with h | h <;> simp [h]) ⟨hb, rfl, hq.1⟩ hcc hg ht
          (by simp [hn]) (.inl (by simp [← hn]))
      | val x f => exact absurd hmm (hm.not_val x f)
    | pWait h hr => exact .told (.inr (.inl rfl)) hc hq hpc hcc hs hg ht hm hn
    | pGet h hq' =>
      obtain ⟨hb, hq | hq⟩ := hq <;> rw [hq.2] at hq' <;> cases hq'
      cases hmm : m with
      | pt x =>
        subst hmm
        have hsg := hs (by nofun)
        have ho : σ.opt s.got = .ask x := by
          rw [hsg] at hm; exact Req.msg_pt (Says.of_talk hm ht).symm
        have hcw : s.cpc = .wait x := by
          rcases hc with hc | hc
          · exact hc
          · exact absurd rfl (hc.2 x)
        exact .idle (x := x) rfl hcw ⟨hb, rfl, hq.1⟩ hcc hsg ho ht (by simp [hn])
      | conv x b =>
        subst hmm
        have hsg := hs (by nofun)
        have ho : σ.opt s.got = .stop x b := by
          rw [hsg] at hm; exact Req.msg_conv (Says.of_talk hm ht).symm
        exact .joining rfl (hend (by nofun)) ⟨hb, rfl, hq.1⟩ hsg ho ht (by simp [hn])
      | err =>
        subst hmm
        exact .failed rfl (by rcases hend (by nofun) with h | h <;> simp [h]) ⟨hb, rfl, hq.1⟩ hcc hg ht
          (by simp [hn]) (.inl (by simp [← hn]))
      | val x f => exact absurd hmm (hm.not_val x f)
    | cExit h hb =>
      refine .told hp (.inr ⟨rfl, fun x hx => ?_⟩) hq hpc hcc hs hg ht hm hn
      subst hx
      rcases hc with hc | hc <;> simp_all [after]
    | cFeed h =>
      obtain ⟨hb, hq | hq⟩ := hq <;> rw [hq.1] at h <;> cases h
      exact .told hp hc ⟨hb, .inr ⟨rfl, by simp [hq.2]⟩⟩ hpc hcc hs hg ht hm hn
    | crash => exact absurd rfl he
    | _ =>
      rcases hp with (hp | hp) | hp | hp <;> rcases hcs with ⟨x, hx⟩ | hx | hx <;> simp_all [AtC]
  | idle hp hc hq hcc hs ho ht hn =>
    cases hs' with
    | call v h =>
      exact .called (.inl rfl) hc hq hcc (by simp [hs]) ho ht (by simp [hn])
    | destroy h => exact .closed rfl rfl ⟨hq.1, hq.2.1, rfl⟩ ⟨[], by simp [hs], by simp⟩ ht hn
    | crash => exact absurd rfl he
    | _ => simp_all [Empty]
  | called hp hc hq hcc hs ho ht hn =>
    cases hs' with
    | pClear h =>
      rcases hp with hp | hp
      · rw [hp] at h; cases h
        exact .called (.inr ⟨rfl, rfl⟩) hc hq hcc hs ho ht hn
      · rw [hp.1] at h; cases h
    | pPut h =>
      rcases hp with hp | hp
      · rw [hp] at h; cases h
      · rw [hp.1] at h; cases h
        exact .sending rfl hc ⟨hq.2.2, .inl ⟨by simp [hq.1], hq.2.1⟩⟩ hp.2 hcc hs ho ht hn
    | crash => exact absurd rfl he
    | _ => rcases hp with hp | hp <;> simp_all [Empty]
  | sending hp hc hq hpc hcc hs ho ht hn =>
    cases hs' with
    | pSet h => exact .value rfl (.inl hc) hq hpc rfl hs ho ht hn
    | pFeed h =>
      obtain ⟨hb, hq | hq⟩ := hq <;> rw [hq.1] at h <;> cases h
      exact .sending hp hc ⟨hb, .inr ⟨rfl, by simp [hq.2]⟩⟩ hpc hcc hs ho ht hn
    | crash => exact absurd rfl he
    | _ => simp_all [AtP]
  | joining hp hc hq hs ho ht hn =>
    cases hs' with
    | pJoin h hd => exact .closed rfl hd hq ⟨[], by simp [hs], by simp⟩ ht hn
    | cExit h hb => exact .joining hp (.inr rfl) hq hs ho ht hn
    | crash => exact absurd rfl he
    | _ => rcases hc with hc | hc <;> simp_all [Empty]
  | closed hp hc hq hg ht hn =>
    cases hs' with
    | crash => exact absurd rfl he
    | _ => simp_all [Empty]
  | failed hp hc hq hcc hg ht hn hl =>
    cases hs' with
    | destroy h => exact .closed rfl rfl ⟨hq.1, hq.2.1, rfl⟩ hg ht hn
    | cExit h hb => exact .failed hp (.inr (.inl rfl)) hq hcc hg ht hn hl
    | crash => exact absurd rfl he
    | _ => rcases hc with hc | hc | ⟨x, hc, _⟩ <;> simp_all [Empty]

theorem Answers.step {s s' : St X F} {e : Ev X F} (h : Ok σ s) (ha : Answers σ s)
    (hs' : Step σ s e s') : Answers σ s' := by
  have hget : ∀ m q, (s.ppc = .initGet ∨ s.ppc = .get) → s.pipe = m :: q →
      s.ans.length = s.sent.length ∧ Says σ s.sent m := by
    intro m q hp hq
    cases h with
    | told hp' hc hq' hpc hcc hs hg ht hm hn =>
      obtain ⟨hb, hq' | hq'⟩ := hq' <;> rw [hq'.2] at hq <;> cases hq
      exact ⟨hn, hm⟩
    | running hp' => rcases hp with hp | hp <;> rcases hp' with hp' | hp' <;> simp_all
    | answering hp' => rcases hp with hp | hp <;> rcases hp' with hp' | hp' <;> simp_all
    | telling hp' => rcases hp with hp | hp <;> rcases hp' with hp' | hp' <;> simp_all
    | called hp' => rcases hp with hp | hp <;> rcases hp' with hp' | hp' <;> simp_all
    | _ => rcases hp with hp | hp <;> simp_all
  cases hs' with
  | initGet hp hq => exact ha.push (hget _ _ (.inl hp) hq).1 (hget _ _ (.inl hp) hq).2 _ rfl rfl
  | pGet hp hq => exact ha.push (hget _ _ (.inr hp) hq).1 (hget _ _ (.inr hp) hq).2 _ rfl rfl
  | call v hp =>
    have hn : s.ans.length = s.sent.length + 1 := by
      cases h with
      | idle _ _ _ _ _ _ _ hn => exact hn
      | running hp' => rcases hp' with hp' | hp' <;> simp_all
      | answering hp' => rcases hp' with hp' | hp' <;> simp_all
      | telling hp' => rcases hp' with hp' | hp' <;> simp_all
      | told hp' => rcases hp' with (hp' | hp') | hp' | hp' <;> simp_all
      | called hp' => rcases hp' with hp' | hp' <;> simp_all
      | _ => simp_all
    exact ha.call hn _ rfl rfl
  | _ => exact ha

theorem Reach.inv {s : St X F} (h : Reach σ s) : Ok σ s ∧ Answers σ s := by
  induction h with
  | init =>
    exact ⟨.running (.inr ⟨rfl, rfl⟩) rfl ⟨rfl, rfl, rfl⟩ rfl rfl rfl .nil rfl, by
      intro k m hk; simp [St.init] at hk⟩
  | step h hs he ih => exact ⟨ih.1.step hs he, Answers.step ih.1 ih.2 hs⟩

end Verif.LocalOpt
