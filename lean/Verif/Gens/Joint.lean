import Verif.Gens.Worker
import Verif.System.GensDemo
/-!
Property C71, continued: the sampling generators together with manager and workers.
-/
namespace Verif.Gens
open Verif.Worker
open Verif.System (Env Joint outs got sentTo Says onTheWay isGot fromWorker deliver deliver_tr outs_append step_grows Possible Asking Simple OkMsg msgTo orderOf)

variable {code : Nat → List Obs → Made → Nat} {G : Gen} {S : UserF} {env : Env} {tr : List Manager.Ev} {ws : Nat → W}

/-- The number of rows of an array. -/
def outRows : Manager.Out → Nat
  | .arr r => r.rows.length
  | _ => 0

/-- The number of points that the manager has received from worker `w` in messages of a persistent function before its end. -/
def ptsFrom (w : Nat) : List Manager.Ev → Nat
  | [] => 0
  | .recv v (.data d) :: tr => ptsFrom w tr + if v = w ∧ d.persistent = true ∧ d.calcStatus ≠ 12 then outRows d.out else 0
  | _ :: tr => ptsFrom w tr

/-- The number of rows in the orders of the manager to worker `w`. -/
def rowsTo (w : Nat) : List Manager.Ev → Nat
  | [] => 0
  | .order v _ wk :: tr => rowsTo w tr + if v = w then wk.rows.length else 0
  | _ :: tr => rowsTo w tr

/-- Rows in orders. -/
def workRows : List Msg → Nat
  | [] => 0
  | (_, .work o) :: l => o.rows.length + workRows l
  | _ :: l => workRows l

theorem workRows_append (a b : List Msg) : workRows (a ++ b) = workRows a + workRows b := by
  induction a with
  | nil => simp [workRows]
  | cons m a ih =>
    obtain ⟨t, x⟩ := m
    cases x <;> simp [workRows, ih, Nat.add_assoc]

theorem workRows_sent (w : Nat) (tr : List Manager.Ev) : workRows (sentTo w tr) = rowsTo w tr := by
  induction tr with
  | nil => rfl
  | cons e tr ih =>
    simp only [sentTo, workRows_append, ih]
    cases e with
    | order v k wk => by_cases hv : v = w <;> simp [msgTo, rowsTo, hv, workRows, orderOf]
    | rows v _ _ | stop v | kill v _ | persisStop v => by_cases hv : v = w <;> simp [msgTo, rowsTo, hv, workRows]
    | _ => simp [msgTo, rowsTo, workRows]

theorem rowsIn_step {s s' : W} (h : Step s s') (hr : rowsIn s.tr ≤ workRows (taken s.tr)) : rowsIn s'.tr ≤ workRows (taken s'.tr) := by
  cases h with
  | retFail o rows h c bs hp hc | retStop o rows h c bs u hp hl hc hu | retAnswer o rows h c bs u s r hp hl hc hs hu =>
    rcases hc with ⟨_, _, rfl⟩ | ⟨m, _, _, rfl⟩ <;> simp only [List.nil_append, List.cons_append, rowsIn, taken, workRows_append] <;> omega
  | recvWork o rows h m c o' hp hc hm =>
    obtain ⟨t, b⟩ := m
    simp only at hm; subst hm
    simp only [rowsIn, taken, workRows_append, workRows]; omega
  | recvBack o rows h h' m c hp hc hw hm =>
    obtain ⟨t, b⟩ := m
    cases b with
    | work o' => exact absurd rfl (hw o')
    | _ => simpa only [rowsIn, taken, List.dropLast_concat] using hr
  | recvErr o rows h h' m c hp hc hw hm =>
    obtain ⟨t, b⟩ := m
    cases b with
    | work o' => exact absurd rfl (hw o')
    | _ => simp only [rowsIn, taken, workRows_append]; omega
  | pollBack | rowsBack => simpa only [rowsIn, taken, List.dropLast_concat] using hr
  | send | stay | obs | raise => exact hr
  | _ => simp only [rowsIn, taken, workRows_append]; omega

theorem rowsIn_run (F : UserF) (k : Comms.Kind) (as : List Worker.Act) : rowsIn (run F k as).tr ≤ workRows (taken (run F k as).tr) := by
  suffices ∀ w : W, rowsIn w.tr ≤ workRows (taken w.tr) → rowsIn (as.foldl (act F) w).tr ≤ workRows (taken (as.foldl (act F) w).tr) from this _ (Nat.le_refl _)
  induction as with
  | nil => exact fun w hw => hw
  | cons a as ih =>
    intro w hw
    refine ih _ ?_
    cases a with
    | send m => exact hw
    | carry => exact hw
    | tick => exact rowsIn_step (tick_step F w) hw

/-- The answer of a persistent call has the status of its end. -/
def Ended12 (tr : List Ev) : Prop := ∀ o s r, .out (.answer o s r) ∈ tr → o.persistent = true → s = 12

theorem ended_tick {w : W} (he : Ended12 w.tr) : Ended12 (tick (asUser code G S) w).tr := by
  have hs := tick_step (asUser code G S) w
  generalize hw' : tick (asUser code G S) w = w' at hs
  cases hs with
  | retAnswer o rows h c bs u s r hp hl hc hne hu =>
    intro o' s' r' hm ho
    rcases List.mem_cons.mp hm with hm | hm
    · injection hm with hm; injection hm with e1 e2 e3; subst e1; subst e2
      have hF : asUser code G S w.n o' rows h = (G h).user (code w.n h) := by simp [asUser, ho]
      unfold tick at hw'
      simp only [hp, hF] at hw'
      cases hG : G h with
      | ret m =>
        simp only [hG, Act.user, W.finish, W.log, UOut.status] at hw'
        cases hb : w.chan.buf with
        | none =>
          simp only [hb, show (12 : Int) ≠ FINISH by decide, if_false] at hw'
          have := congrArg W.tr hw'
          simp only [List.cons.injEq, Ev.out.injEq, Out.answer.injEq] at this
          exact this.1.2.1.symm
        | some m =>
          simp only [hb, show (12 : Int) ≠ FINISH by decide, if_false] at hw'
          have := congrArg W.tr hw'
          simp only [List.cons.injEq, Ev.out.injEq, Out.answer.injEq] at this
          exact this.1.2.1.symm
      | send m => simp only [hG, Act.user] at hw'; have := congrArg W.ph hw'; cases this
      | raise => simp only [hG, Act.user, W.fail] at hw'; have := congrArg W.ph hw'; cases this
      | recv b =>
        exfalso
        have := congrArg W.n hw'
        simp only [hG, Act.user] at this
        revert this
        repeat' split
        all_goals first | (simp only; omega) | (unfold W.pushBack; split <;> (simp only [W.log]; omega)) | (simp only [W.log]; omega) | omega
    · rcases hc with ⟨_, _, rfl⟩ | ⟨m, _, _, rfl⟩
      · rcases List.mem_cons.mp hm with hm | hm
        · cases hm
        · exact he o' s' r' hm ho
      · rcases List.mem_cons.mp hm with hm | hm
        · cases hm
        · rcases List.mem_cons.mp hm with hm | hm
          · cases hm
          · exact he o' s' r' hm ho
  | retFail o rows h c bs hp hc | retStop o rows h c bs u hp hl hc hu =>
    intro o' s' r' hm ho
    rcases hc with ⟨_, _, rfl⟩ | ⟨m, _, _, rfl⟩ <;> simp at hm <;> exact he o' s' r' hm ho
  | stay => exact he
  | obs => exact he
  | _ => intro o' s' r' hm ho; simp at hm; exact he o' s' r' hm ho

theorem ended_run (k : Comms.Kind) (as : List Worker.Act) : Ended12 (run (asUser code G S) k as).tr := by
  suffices ∀ w : W, Ended12 w.tr → Ended12 (as.foldl (act (asUser code G S)) w).tr from this _ (by intro o s r hm; cases hm)
  induction as with
  | nil => exact fun w hw => hw
  | cons a as ih =>
    intro w hw
    refine ih _ ?_
    cases a with
    | send m => exact hw
    | carry => exact hw
    | tick => exact ended_tick hw

/-- Points in outputs of a worker. -/
def outPts (env : Env) : List (List Ev × Out) → Nat
  | [] => 0
  | (_, .data x) :: l => outRows (env.msg x).out + outPts env l
  | _ :: l => outPts env l

theorem outPts_append (a b : List (List Ev × Out)) : outPts env (a ++ b) = outPts env a + outPts env b := by
  induction a with
  | nil => simp [outPts]
  | cons m a ih =>
    obtain ⟨t, x⟩ := m
    cases x <;> simp [outPts, ih, Nat.add_assoc]

theorem outPts_outs (tr : List Ev) : outPts env (outs tr) = ptsOut (fun x => outRows (env.msg x).out) tr := by
  induction tr with
  | nil => rfl
  | cons e tr ih =>
    cases e with
    | out x => cases x <;> simp only [outs, outPts_append, ih, ptsOut, outPts, Nat.add_zero]
    | _ => exact ih

theorem outs_out {l : List Ev} {p : List Ev × Out} (h : p ∈ outs l) : .out p.2 ∈ l := by
  induction l with
  | nil => cases h
  | cons e l ih =>
    cases e with
    | out x =>
      simp only [outs, List.mem_append, List.mem_singleton] at h
      rcases h with h | rfl
      · exact List.mem_cons_of_mem _ (ih h)
      · exact List.mem_cons_self
    | _ => exact List.mem_cons_of_mem _ (ih h)

theorem Joint.ended (h : Joint env tr ws) {w : Nat} (hF : env.F w = asUser code G S) : Ended12 (ws w).tr := by
  obtain ⟨as, h1, _⟩ := h.worker w
  rw [h1, hF]
  exact ended_run _ _

/-- What the manager has received was sent. -/
theorem Joint.received (h : Joint env tr ws) {w : Nat} (hF : env.F w = asUser code G S) :
    ptsFrom w tr ≤ outPts env ((outs (ws w).tr).take (got w tr)) := by
  induction h with
  | init => simp [ptsFrom]
  | @man tr ws e h hp ih =>
    have e1 := (deliver_tr w e (ws w)).1
    simp only [e1]
    have hskip : isGot w e = false → ptsFrom w (e :: tr) = ptsFrom w tr → ptsFrom w (e :: tr) ≤ outPts env ((outs (ws w).tr).take (got w (e :: tr))) := by
      intro hg he
      rw [he, show got w (e :: tr) = got w tr by rw [got, List.countP_cons, got]; simp [hg]]
      exact ih
    cases e with
    | recv v m =>
      cases hm : fromWorker m with
      | false => exact hskip (by simp [isGot, hm]) (by cases m <;> first | rfl | cases hm)
      | true =>
        by_cases hv : v = w
        · subst hv
          obtain ⟨pre, x, rest, h1, h2⟩ := hp hm
          have hg : got v (.recv v m :: tr) = got v tr + 1 := by rw [got, List.countP_cons, got]; simp [isGot, hm]
          have htake : (outs (ws v).tr).take (got v tr + 1) = (outs (ws v).tr).take (got v tr) ++ [(pre, x)] := by
            have hx : (outs (ws v).tr)[got v tr]? = some (pre, x) := by
              have := congrArg List.head? h1
              rwa [onTheWay, List.head?_drop] at this
            rw [List.take_add_one, hx]; rfl
          rw [hg, htake, outPts_append]
          have hin : (pre, x) ∈ outs (ws v).tr := by
            have : (pre, x) ∈ onTheWay v tr (ws v) := by rw [h1]; exact List.mem_cons_self
            exact List.mem_of_mem_drop this
          cases m with
          | data d =>
            simp only [ptsFrom]
            refine Nat.add_le_add ih ?_
            split
            · rename_i hd
              cases x with
              | data x =>
                obtain ⟨rfl, _⟩ := h2
                simp [outPts]
              | answer o s r =>
                obtain ⟨out, rfl⟩ := h2
                have := Joint.ended h hF o s r (outs_out hin) hd.2.1
                subst this
                exact absurd rfl hd.2.2
              | err => exact h2.elim
            · exact Nat.zero_le _
          | err => simp only [ptsFrom]; omega
          | _ => cases hm
        · refine hskip (by simp [isGot, hv]) ?_
          cases m <;> simp [ptsFrom, hv]
    | _ => exact hskip rfl rfl
  | @carry tr ws v h ih =>
    by_cases hv : w = v
    · subst hv; simpa only [if_true] using ih
    · simp only [if_neg hv]; exact ih
  | @tick tr ws v h ih =>
    by_cases hv : w = v
    · subst hv
      simp only [if_true]
      obtain ⟨l, hl⟩ := step_grows (tick_step (env.F w) (ws w))
      rw [hl, outs_append, List.take_append_of_le_length (h.got_le w)]
      exact ih
    · simp only [if_neg hv]; exact ih

theorem outPts_take (l : List (List Ev × Out)) (n : Nat) : outPts env (l.take n) ≤ outPts env l := by
  conv => rhs; rw [← List.take_append_drop n l]
  rw [outPts_append]
  exact Nat.le_add_right _ _

/-- In a run of manager and workers, a worker with a sampling generator never has sent more points than the rows that the manager has
given to it and one first batch for each call. -/
theorem C71_flight (h : Joint env tr ws) (b0 w : Nat) (hG : G = uniform b0 ∨ G = nonblocking b0 ∨ ∃ limit, G = shutdown b0 limit)
    (hF : env.F w = asUser code G S) (hsize : ∀ n h m, outRows (env.msg (code n h m)).out = m.size) (hS : ∀ n o rows h x, S n o rows h ≠ .send x) :
    ptsFrom w tr ≤ b0 * calls (ws w).tr + rowsTo w tr := by
  have L : Loops b0 G := by
    rcases hG with rfl | rfl | ⟨limit, rfl⟩
    · exact uniform_loops b0
    · exact nonblocking_loops b0
    · exact shutdown_loops b0 limit
  obtain ⟨as, h1, _⟩ := h.worker w
  have hfl := flight_run (size := fun x => outRows (env.msg x).out) L hsize hS (env.kind w) as
  have hri := rowsIn_run (env.F w) (env.kind w) as
  rw [← hF, ← h1] at hfl
  rw [← h1] at hri
  have ht := congrArg workRows (h.taken w)
  rw [workRows_append, workRows_sent] at ht
  have hr := Nat.le_trans (Joint.received h hF) (outPts_take _ _)
  rw [outPts_outs] at hr
  unfold Flight at hfl
  omega

/-- The generators that wait after each message are such as `C70` is about. -/
theorem asking_of (hG : ∃ b0, G = uniform b0 ∨ G = batched b0 ∨ (∃ limit, G = shutdown b0 limit) ∨ ∃ pick vals, G = finalUpdate b0 pick vals)
    (hmsg : ∀ n h m, OkMsg (env.msg (code n h m))) : Asking env (asUser code G S) where
  acts n o rows h hp ha := by
    have hF : asUser code G S n o rows h = (G h).user (code n h) := by simp [asUser, hp]
    rw [hF]
    cases hA : G h with
    | send m => exact .inl ⟨_, rfl, hmsg _ _ _⟩
    | ret m => exact .inr ⟨_, rfl, rfl⟩
    | recv b =>
      obtain ⟨b0, hG⟩ := hG
      exfalso
      cases h with
      | nil => rcases hG with rfl | rfl | ⟨_, rfl⟩ | ⟨_, _, rfl⟩ <;> cases hA
      | cons x h =>
        cases x with
        | input t o r =>
          rcases hG with rfl | rfl | ⟨_, rfl⟩ | ⟨_, _, rfl⟩ <;> simp only [uniform, batched, shutdown, finalUpdate] at hA
          all_goals repeat' split at hA
          all_goals cases hA
        | _ => cases ha
    | raise =>
      obtain ⟨b0, hG⟩ := hG
      exfalso
      cases h with
      | nil => rcases hG with rfl | rfl | ⟨_, rfl⟩ | ⟨_, _, rfl⟩ <;> cases hA
      | cons x h =>
        cases x with
        | input t o r =>
          rcases hG with rfl | rfl | ⟨_, rfl⟩ | ⟨_, _, rfl⟩ <;> simp only [uniform, batched, shutdown, finalUpdate] at hA
          all_goals repeat' split at hA
          all_goals cases hA
        | _ => cases ha
  waits n o rows h hp := by
    have hF : asUser code G S n o rows (.sent :: h) = (G (.sent :: h)).user (code n (.sent :: h)) := by simp [asUser, hp]
    rw [hF]
    obtain ⟨b0, hG⟩ := hG
    rcases hG with rfl | rfl | ⟨_, rfl⟩ | ⟨_, _, rfl⟩ <;> rfl

theorem simple_of (hS : Simple S) : Simple (asUser code G S) where
  acts n o rows h hp := by
    have : asUser code G S n o rows h = S n o rows h := by simp [asUser, hp]
    rw [this]; exact hS.acts n o rows h hp
  ends n o rows hp := by
    obtain ⟨B, hB⟩ := hS.ends n o rows hp
    refine ⟨B, fun h hl => ?_⟩
    have : asUser code G S n o rows h = S n o rows h := by simp [asUser, hp]
    rw [this]; exact hB h hl

open Verif.Manager (Start Iter AllocEnv) in
/-- A run with `only_persistent_gens`, `sim_max` and the sampling generators comes to its end: for these nothing has to be assumed about
what generators do.  Partial: for the settings of `PlainGens`. -/
theorem C71_ends_partial {c : Start} {f : Nat → Iter} (C : System.Course env c f) (o : Alloc.UserOpts) (hu : System.PlainGens c o) (aenv : AllocEnv)
    (hits : ∀ k, (f k).uses (.persGens o) aenv c.sp)
    (hG : ∃ b0, G = uniform b0 ∨ G = batched b0 ∨ (∃ limit, G = shutdown b0 limit) ∨ ∃ pick vals, G = finalUpdate b0 pick vals)
    (hF : ∀ w, env.F w = asUser code G S) (hS : Simple S) (hmsg : ∀ n h m, OkMsg (env.msg (code n h m))) (m : Nat) (hm : c.sp.simMax = some m) (hstd : c.Std)
    (hok : ∀ k, (c.loop (Manager.passes f k)).2 = .running → c.Protected (c.loop (Manager.passes f k)).1.tr)
    (hclock : ∀ k, (f k).e2 ≤ (f (k + 1)).e1) : ∃ k, (c.loop (Manager.passes f k)).2 ≠ .running :=
  System.C70_gens_ends_partial C o hu aenv hits (fun w => by rw [hF w]; exact simple_of hS) (fun w => by rw [hF w]; exact asking_of hG hmsg) m hm hstd hok hclock

/-! ### A run -/

open Verif.System (gensDemo gensPass gensMsg lookF lookF_simple courseOf scriptOf scriptOf_evs gensDemo_ended gensDemo_out gensPass_uses gensPass_clock)
open Verif.Manager (gopts bdemo_std)

/-- Workers with `persistent_uniform` and one point per batch; the arrays sent have one point each. -/
def uniEnv : Env := { F := fun _ => asUser (fun _ _ _ => 0) (uniform 1) lookF, kind := fun w => if w = 2 then .mpi else .queue, msg := fun _ => gensMsg }

def uniCourse : System.Course uniEnv gensDemo gensPass :=
  courseOf uniEnv true gensDemo gensPass 6 (scriptOf (gensDemo.loop (Manager.passes gensPass 6)).1.tr) gensDemo_ended (scriptOf_evs _) (by decide +kernel)
    (fun _ w d hm hc _ => gensDemo_out w d hm hc)

/-- All conditions of `C71_ends_partial` are met by this run. -/
example : ∃ k, (gensDemo.loop (Manager.passes gensPass k)).2 ≠ .running :=
  C71_ends_partial uniCourse gopts ⟨rfl, rfl, rfl, rfl⟩ Manager.demoEnv gensPass_uses ⟨1, .inl rfl⟩ (fun _ => rfl) lookF_simple (fun _ _ _ => ⟨rfl, rfl, rfl⟩) 4 rfl
    ⟨bdemo_std.has, bdemo_std.sc, bdemo_std.sc0⟩ (fun _ _ => .inl rfl) gensPass_clock

/-- Two points came from the first generator, one row was given to it. -/
example : ptsFrom 1 (gensDemo.loop (Manager.passes gensPass 6)).1.tr = 2 ∧ rowsTo 1 (gensDemo.loop (Manager.passes gensPass 6)).1.tr = 1 := by decide +kernel

/-- Messages with as many points as the generator made. -/
def sizeEnv : Env :=
  { F := fun _ => asUser (fun _ _ m => m.size) (uniform 2) lookF, kind := fun _ => .queue,
    msg := fun x => { gensMsg with out := .arr (History.demoPoints (List.replicate x 10)) } }

/-- A generator is started and sends its first two points, which arrive: all conditions of `C71_flight` are met, and the bound is
reached. -/
example : ∃ tr ws, Joint sizeEnv tr ws ∧ ptsFrom 1 tr = 2 ∧ calls (ws 1).tr = 1 ∧ rowsTo 1 tr = 0 ∧
    ptsFrom 1 tr ≤ 2 * calls (ws 1).tr + rowsTo 1 tr := by
  have J := Joint.tick 1 (Joint.tick 1 (Joint.carry 1 (Joint.man (env := sizeEnv) (.order 1 0 { tag := EVAL_GEN, fields := [], rows := [], persistent := true }) .init trivial)))
  have J := Joint.man (.recv 1 (.data { gensMsg with out := .arr (History.demoPoints [10, 10]), rows := [], persistent := true })) J
    (fun _ => ⟨_, .data 2, [], rfl, rfl, .inr rfl⟩)
  exact ⟨_, _, J, rfl, rfl, rfl, C71_flight J 2 1 (.inl rfl) rfl (by intro n h m; simp [sizeEnv, outRows, History.demoPoints])
    (by intro n o rows h x hx; unfold lookF at hx; split at hx <;> cases hx)⟩

end Verif.Gens
