import Verif.Runner.Lemmas
import Verif.Worker.Props
import Verif.Arrays.Props
/-!
C59: the runners of suggest/ingest generators.

`Runs F ops cs g`: the user function of the worker is, for orders of generation, the runner with the methods `ops` (those of
`StandardGenRunner`: `standard C W G`; those of `LibensembleGenRunner`: `numpy W G`), the sizes `cs o` and the generator `g n`.
`(after ops (cs o) (g n) rows h).log` are the calls of the generator that have been made when the user function acts;
`replay` checks that they are calls of `ops`.  Worker and messages are arbitrary.
-/
namespace Verif.Runner
open Verif.Worker Verif.Comms

variable {σ : Type} {ops : Ops σ} {F : UserF} {cs : Order → Sizes} {g : Nat → σ}

/-- The calls recorded are calls of the generator's methods, in this order. -/
theorem C59_real (c : Sizes) (g : σ) (rows : Option Body) (h : List Obs) :
    replay ops g (after ops c g rows h).log = some (after ops c g rows h).gen := replay_after g rows h

/-- Whenever the runner is about to send: it sends the array that the generator has suggested last; the arrays sent before are the
other arrays suggested, the arrays ingested (after `H0`) are those received, and `suggest` and `ingest` alternate, with the sizes
specified; no stop has been received. -/
theorem C59_sends (hF : Runs F ops cs g) (k : Kind) (as : List Act) {o : Order} {rows : Option Body} {h : List Obs} {x : Nat}
    (hp : (run F k as).ph = .user o rows h) (ht : o.tag = EVAL_GEN) (ho : o.persistent = true)
    (hx : F (run F k as).n o rows h = .send x) :
    ∃ l, (after ops (cs o) (g (run F k as).n) rows h).log = l ++ h0Calls ops.len rows ∧ asked l = true ∧
      Talk (cs o) ops.len l (x :: said (run F k as).tr) (received (run F k as).tr) ∧
      ∀ m ∈ heard (run F k as).tr, isStop m.1 = false := by
  obtain ⟨_, hI⟩ := user_run ((runner_inv hF).and (runner_heard hF)) k as
  unfold Inside at hI
  simp only [hp] at hI
  obtain ⟨_, hR, hH⟩ := hI
  obtain ⟨l, hl, hs⟩ := hR ht ho
  have hH := hH ht ho
  rw [hF.pt ht ho] at hx
  obtain ⟨f, hpt⟩ := act_send hx
  rw [hpt] at hs hH
  have hl := hl (by rw [hpt]; simp)
  obtain ⟨h1, n, l', h2⟩ := hs
  exact ⟨l, hl, by rw [h2]; rfl, h1, hH⟩

/-- Whenever the runner waits for an answer: the arrays sent are those suggested, the arrays ingested (after `H0`) are those
received, `suggest` and `ingest` alternate, the last call was `suggest`; the receive blocks; no stop has been received. -/
theorem C59_waits (hF : Runs F ops cs g) (k : Kind) (as : List Act) {o : Order} {rows : Option Body} {h : List Obs} {b : Bool}
    (hp : (run F k as).ph = .user o rows h) (ht : o.tag = EVAL_GEN) (ho : o.persistent = true)
    (hx : F (run F k as).n o rows h = .recv b) :
    b = true ∧ ∃ l, (after ops (cs o) (g (run F k as).n) rows h).log = l ++ h0Calls ops.len rows ∧ asked l = true ∧
      Talk (cs o) ops.len l (said (run F k as).tr) (received (run F k as).tr) ∧
      ∀ m ∈ heard (run F k as).tr, isStop m.1 = false := by
  obtain ⟨_, hI⟩ := user_run ((runner_inv hF).and (runner_heard hF)) k as
  unfold Inside at hI
  simp only [hp] at hI
  obtain ⟨_, hR, hH⟩ := hI
  obtain ⟨l, hl, hs⟩ := hR ht ho
  have hH := hH ht ho
  rw [hF.pt ht ho] at hx
  obtain ⟨hb, f, hpt⟩ := act_recv hx
  rw [hpt] at hs hH
  have hl := hl (by rw [hpt]; simp)
  obtain ⟨h1, ⟨n, x, l', h2⟩, _⟩ := hs
  exact ⟨hb, l, hl, by rw [h2]; rfl, h1, hH⟩

/-- The runner is never in another situation: it sends, waits, returns or raises; it does not poll. -/
theorem C59_acts (hF : Runs F ops cs g) (n : Nat) (o : Order) (rows : Option Body) (h : List Obs) (ht : o.tag = EVAL_GEN) :
    F n o rows h ≠ .poll := by
  rw [hF n o rows h ht]
  unfold genF
  split
  · exact act_poll
  · simp

/-- When the runner returns, a stop has been received in its last receive and none before; everything suggested has been sent;
everything received has been ingested, the results that came with the stop included; `finalize` is called last, once; the status
says that a persistent generator has finished. -/
theorem C59_returns (hF : Runs F ops cs g) (k : Kind) (as : List Act) {post pre : List Ev} {u : UOut} {o : Order} {rows : Option Body}
    (h : (run F k as).tr = post ++ .ret u :: pre) (hr : running pre = some (o, rows)) (ht : o.tag = EVAL_GEN) :
    o.persistent = true ∧ u = .pairStatus 12 ∧ StoppedNow (heard pre) ∧
    ∃ n hs l, (after ops (cs o) (g n) rows hs).log = .finalize :: l ++ h0Calls ops.len rows ∧
      (Talk (cs o) ops.len l (said pre) (received pre) ∨
       ∃ l', l = .ingest none true :: l' ∧ received pre = [] ∧ Talk (cs o) ops.len l' (said pre) []) := by
  obtain ⟨hA, _⟩ := user_run ((runner_inv hF).and (runner_heard hF)) k as
  obtain ⟨n, o', rows', hs, h1, ⟨hR, hH⟩, hf⟩ := hA _ _ _ h
  rw [hr] at h1
  cases h1
  have ho : o.persistent = true := by
    cases ho : o.persistent with
    | true => rfl
    | false =>
      rw [hF n o rows hs ht] at hf
      unfold genF at hf
      rw [if_neg (by simp [ho])] at hf
      cases hf
  obtain ⟨l, hl, hs'⟩ := hR ht ho
  have hH := hH ht ho
  rw [hF.pt ht ho] at hf
  obtain ⟨hu, b, hpt⟩ := act_ret hf
  rw [hpt] at hs' hH
  have hl := hl (by rw [hpt]; simp)
  refine ⟨ho, hu, hH, n, hs, ?_⟩
  cases b with
  | none =>
    obtain ⟨l', h1, _, h2⟩ := hs'
    rcases h2 with rfl | ⟨rfl, h2⟩
    · exact ⟨l', hl, .inl h1⟩
    · exact ⟨.ingest none true :: l', hl, .inr ⟨l', rfl, h2, by rw [← h2]; exact h1⟩⟩
  | some r =>
    obtain ⟨l', h1, _, rfl, _⟩ := hs'
    exact ⟨l', hl, .inl h1⟩

/-- A runner returns with exactly one answer to the manager, which says that a persistent generator has finished, unless the
worker's finish signal was among the messages. -/
theorem C59_answer (hF : Runs F ops cs g) (k : Kind) (as : List Act) {post pre : List Ev} {u : UOut} {o : Order} {rows : Option Body}
    (h : (run F k as).tr = post ++ .ret u :: pre) (hr : running pre = some (o, rows)) (ht : o.tag = EVAL_GEN)
    (hn : ∀ m ∈ heard pre, ¬finishMsg m) :
    ∃ r post', post = post' ++ [.out (.answer o 12 r)] ∨ ∃ m, post = post' ++ [.out (.answer o 12 r), .buffered m] := by
  obtain ⟨_, rfl, _⟩ := C59_returns hF k as h hr ht
  obtain ⟨o', b', r, post', h1, h2⟩ := C38_one_answer F k as h hn (by decide) (by simp)
  rw [hr] at h1
  cases h1
  rcases h2 with h2 | ⟨m, _, h2⟩
  · exact ⟨r, post', .inl h2⟩
  · exact ⟨r, post', .inr ⟨m, h2⟩⟩

/-- Full statement: the runner raises no exception as long as the generator raises none.  Proved for streams written as the manager
writes them (`Framed`, and every order received has rows, `Careful`) if the generator accepts `None` as first results or is
not stopped, without data, before the first results.  Missing: that stop (`C59_early_stop_witness`), orders without rows. -/
theorem C59_no_exception_partial (hF : Runs F ops cs g) {ok : σ → Prop} (W : Willing ops ok) (hg : ∀ n, ok (g n)) (k : Kind) (as : List Act) (hfr : Framed (sends as))
    (hca : Careful (run F k as).tr)
    (hearly : ∀ post m pre, (run F k as).tr = post ++ .uback m :: pre → received pre ≠ [] ∨ TakesNone ops ok)
    {post pre : List Ev} {o : Order} {rows : Option Body} (h : (run F k as).tr = post ++ .raise :: pre)
    (hr : running pre = some (o, rows)) (ht : o.tag = EVAL_GEN) : o.persistent = false := by
  obtain ⟨s1, s2, s3, _⟩ := C38_separate_partial F k as hfr hca
  have hord : Orderly ops ok (run F k as).tr :=
    { took := fun m hm => by
        obtain ⟨t, b⟩ := m
        cases b with
        | work o => exact .inl ⟨o, rfl⟩
        | data x => exact absurd rfl (s1 _ (.inr (.inl hm)) x)
        | sig n => exact .inr (framed_sig _ _ hfr _ (utook_sent F k as _ (.inl hm)) n rfl)
      rows := fun m hm => s2 m (.inr hm)
      start := s3
      early := hearly }
  have hpre : ∀ {post pre : List Ev}, (run F k as).tr = post ++ pre → Orderly ops ok pre := by
    intro post pre he
    rw [he] at hord
    clear he h
    induction post with
    | nil => exact hord
    | cons e post ih => exact ih hord.tail
  obtain ⟨hA, _⟩ := user_run (runner_fine hF W hg) k as
  cases ho : o.persistent with
  | false => rfl
  | true =>
    exfalso
    rcases hA _ _ _ h with h1 | ⟨bs, pre', h1, hb⟩ | ⟨n, o', rows', hs, h1, hI, hf⟩
    · rw [hr] at h1; cases h1
    · have hr' : running pre' = some (o, rows) := by
        rw [h1] at hr
        clear h h1
        induction bs with
        | nil => exact hr
        | cons e bs ih =>
          obtain ⟨m, rfl⟩ := hb e List.mem_cons_self
          exact ih hr (fun e he => hb e (List.mem_cons_of_mem _ he))
      have := (C59_returns hF k as (post := post ++ .raise :: bs) (pre := pre') (u := .long) (by rw [h, h1]; simp [List.append_assoc]) hr' ht).2.1
      cases this
    · rw [hr] at h1
      cases h1
      rw [hF.pt ht ho] at hf
      exact (hI.2 ht ho (hpre (post := post ++ [.raise]) (pre := pre) (by rw [h]; simp))).1 (act_raise hf)

end Verif.Runner
