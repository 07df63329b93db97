import Verif.Manager.HeldReach
import Verif.Manager.PropsOrders
/-!
Property C20: who holds which resource sets.

`holds w tr` (Held.lean) reads from the messages alone which sets worker `w` holds after the events `tr`: those named in
the last order it got while not running a persistent function, until it answers the order or, if the order starts a
persistent function, until this function finishes.  `rmAt rm0 tr` is the resource table of the manager at that moment and
`Settled rm0 tr` says that the table names `w` as the owner of exactly the sets that `w` holds, for every `w`.
-/
namespace Verif.Manager
open Verif.History Verif.Res Verif.Sched Verif.Alloc

theorem mkRM_fresh {α} [DecidableEq α] {n : Nat} {nodes : List α} {gpn : Nat} {gpg : Option Nat} {rm0 : RM}
    (h : mkRM n nodes gpn gpg = some rm0) :
    (∀ i w : Nat, rm0.assigned[i]? ≠ some (some w)) ∧ rm0.assigned.length = rm0.rsets.length := by
  simp only [mkRM, Option.map_eq_some_iff] at h
  obtain ⟨⟨split, _⟩, _, rfl⟩ := h
  refine ⟨fun i w => ?_, by simp⟩
  simp only [List.getElem?_replicate]
  split <;> simp

/-- The claims of C20 about a run. -/
structure HeldOk (rm0 : RM) (s : St) (fine : Bool) : Prop where
  /-- At every moment all sets that are held exist and nobody else holds them. -/
  apart : ∀ post pre, s.tr = post ++ pre → Apart rm0.rsets.length pre
  /-- Sets are taken only if they are distinct and nobody holds them. -/
  assign : ∀ post pre w T, s.tr = post ++ .assign w T :: pre → T.Nodup ∧ ∀ i ∈ T, i < rm0.rsets.length ∧ ∀ w', i ∉ holds w' pre
  /-- Every order names its sets and is sent to the worker who gets the sets; afterwards the table is right. -/
  order : ∀ post pre to key wk, s.tr = post ++ .order to key wk :: pre → to = key ∧ wk.team ≠ none ∧ Settled rm0 (.order to key wk :: pre)
  /-- The table is right whenever the main loop takes a message … -/
  recv : ∀ post pre w m, s.tr = post ++ .recv w m :: pre → hasFinal pre = false → Settled rm0 pre
  /-- … and whenever it evaluates the loop condition. -/
  test : ∀ post pre r, s.tr = post ++ .test r :: pre → hasFinal pre = false → Settled rm0 pre
  /-- The table at the end. -/
  table : s.rm = some (rmAt rm0 s.tr)
  settled : fine = true → Settled rm0 s.tr

/-- Runs that have not raised. -/
def Outcome.fine : Outcome → Bool
  | .running | .returned _ => true
  | _ => false

theorem heldOk_of {c : Start} {P : St → Reply → Prop} {α} [DecidableEq α] {n : Nat} {nodes : List α} {gpn : Nat} {gpg : Option Nat} {rm0 : RM}
    (hnd : nodes.Nodup) (hg : gpg ≠ some 0) (hmk : mkRM n nodes gpn gpg = some rm0) (h0 : c.rm = some rm0)
    (hfgs : c.sp.finalGenSend = false)
    (hP : ∀ s cs work p, Reach c.sp P c.st .alloc s → P s (.ok cs work false p) → Scheduled c.sp s work)
    {p : Ph} {s : St} (hr : Reach c.sp P c.st p s) (hs : Sane s.tr) {f : Bool} (hf : f = true → p.fine = true) : HeldOk rm0 s f := by
  obtain ⟨hfresh, hlen⟩ := mkRM_fresh hmk
  have h := held_reach h0 hfresh (fun rm hl => lwf_layout hnd hg hmk hl) hfgs hP hr hs
  have hl : ∀ tr, (rmAt rm0 tr).assigned.length = rm0.rsets.length := fun tr => by rw [(rmAt_layout rm0 tr).len, hlen]
  refine ⟨?_, ?_, ?_, ?_, ?_, start_rmAt h0 hr, fun h1 => h.settled (hf h1)⟩
  · intro post pre e
    refine apart_always hl ?_
    intro post' e' pre' he
    exact h.events (post ++ post') e' pre' (by rw [e, he, List.append_assoc])
  · intro post pre w T e; exact h.events _ _ _ e
  · intro post pre to key wk e; exact (h.events _ _ _ e).2
  · intro post pre w m e; exact h.events _ _ _ e
  · intro post pre r e; exact h.events _ _ _ e

theorem Outcome.fine_ph {o : Outcome} {p : Ph} (h : o.ph p) (hf : o.fine = true) : p.fine = true := by
  cases o with
  | running => cases h; rfl
  | returned f => rcases h with rfl | ⟨r, rfl⟩ <;> rfl
  | _ => cases hf

/-! ## C20 -/

/-- A resource set is never held by two workers, and the table of the manager says who holds what.  For every
allocation function that takes its sets from the scheduler, every answer of the workers and every schedule.
Partial: without `final_gen_send` (see the witness), messages of running persistent functions with a calculation
type, answers with at most one order for each existing worker; the table is compared where the main loop looks at it and at
the end of a run without an exception. -/
theorem C20_sets_partial {α} [DecidableEq α] (c : Start) (n : Nat) (nodes : List α) (hnd : nodes.Nodup) (gpn : Nat) (gpg : Option Nat)
    (hg : gpg ≠ some 0) (rm0 : RM) (hmk : mkRM n nodes gpn gpg = some rm0) (h0 : c.rm = some rm0) (hfgs : c.sp.finalGenSend = false)
    (its : List Iter) (hits : ∀ it ∈ its, ∀ s cs work p, it.alloc s = .ok cs work false p → Scheduled c.sp s work)
    (t : Nat → Int) (rounds : List Round) (hs : Sane (c.run its t rounds).1.tr) :
    HeldOk rm0 (c.run its t rounds).1 (c.run its t rounds).2.fine := by
  obtain ⟨p, hp, hr⟩ := run_reach (sp := c.sp) (s0 := c.st)
    (P := fun s r => ∀ cs work p, r = .ok cs work false p → Scheduled c.sp s work) its t rounds
    (fun it hit s cs work p h => hits it hit s cs work p h)
  exact heldOk_of hnd hg hmk h0 hfgs (fun s cs work p _ h => h cs work p rfl) hr hs (fun hf => Outcome.fine_ph hp hf)

/-- The bundled allocation functions are such functions. -/
theorem C20_bundled_partial {α} [DecidableEq α] (c : Start) (n : Nat) (nodes : List α) (hnd : nodes.Nodup) (gpn : Nat) (gpg : Option Nat)
    (hg : gpg ≠ some 0) (rm0 : RM) (hmk : mkRM n nodes gpn gpg = some rm0) (h0 : c.rm = some rm0) (hfgs : c.sp.finalGenSend = false)
    (b : Bundled) (env : AllocEnv) (hman : env.manage = true)
    (ha0 : ∀ lp n, b = .aposmm lp n → c.pinfo.firstCall = false → c.pinfo.nextToGive ≠ none)
    (its : List Iter) (hits : ∀ it ∈ its, it.uses b env c.sp) (t : Nat → Int) (rounds : List Round)
    (hs : Sane (c.run its t rounds).1.tr) : HeldOk rm0 (c.run its t rounds).1 (c.run its t rounds).2.fine := by
  obtain ⟨p, hp, hr⟩ := c.reachB its t rounds hits
  refine heldOk_of hnd hg hmk h0 hfgs ?_ hr hs (fun hf => Outcome.fine_ph hp hf)
  intro s cs work p hr' hP
  obtain ⟨now, ord, hord, _, hcall⟩ := hP.ok
  refine answer_scheduled hman hord ?_ hcall
  intro lp k hb hf
  subst hb
  exact (((once_ord (b := .aposmm lp k) rfl ⟨fun _ => rfl, fun hf => ⟨ha0 lp k rfl hf, by simp⟩⟩ hr').2 rfl).2 hf).1

/-- Four resource sets on two nodes. -/
def resRM : RM := (mkRM 4 ["a", "b"] 0 none).getD ⟨[], [], 0, 0, 0, 0, 0, 0, 0⟩
def resEnv : AllocEnv := { demoEnv with manage := true }
def resDemo : Start := { bdemo with rm := some resRM }

/-- The generator returns points, the first is evaluated while the generator works again. -/
def resIts : List Iter :=
  [bpass (.simFirst {}) resEnv resDemo.sp [], bpass (.simFirst {}) resEnv resDemo.sp [points 1 [10, 20, 30]],
   bpass (.simFirst {}) resEnv resDemo.sp [value 2 [1] [5]]]

example : mkRM 4 ["a", "b"] 0 none = some resRM := by decide
example : ∀ it ∈ resIts, it.uses (.simFirst {}) resEnv resDemo.sp := by
  intro it hit
  simp only [resIts, List.mem_cons, List.not_mem_nil, or_false] at hit
  rcases hit with rfl | rfl | rfl <;> exact bpass_uses _ _ _ _ _

def saneEv : Ev → Bool
  | .recv _ (.data d) => !d.persistent || decide (d.calcType ≠ 0)
  | _ => true

theorem sane_of {tr : List Ev} (h : tr.all saneEv = true) : Sane tr := by
  intro w d hm hp
  have := List.all_eq_true.mp h _ hm
  simpa [saneEv, hp] using this

example : Sane (resDemo.run resIts (fun _ => 0) []).1.tr := sane_of (by decide +kernel)
example : (resDemo.run resIts (fun _ => 0) []).2 = .running ∧
    (resDemo.run resIts (fun _ => 0) []).1.rm.map (·.assigned) = some [some 2, some 3, none, none] ∧
    [1, 2, 3].map (fun w => holds w (resDemo.run resIts (fun _ => 0) []).1.tr) = [[], [0], [1]] := by decide +kernel

/-- Persistent generator on worker 2, `final_gen_send`. -/
def fgsDemo : Start := { bdemo with sp := { wallclockMax := some 50, finalGenSend := true, indexList := [some 0, some 1, some 2] }, gens := [2], rm := some resRM }

/-- Points of a running persistent generator. -/
def genPoints (w : Nat) (as : List Int) : Mail :=
  { w := w, t := 5, m := .data { calcType := EVAL_GEN, calcStatus := 0, rows := [], persistent := true, out := .arr (demoPoints as) } }

def fgsIts : List Iter :=
  [bpass (.persGens {}) resEnv fgsDemo.sp [], bpass (.persGens {}) resEnv fgsDemo.sp [genPoints 2 [10, 20, 30]],
   bpass (.persGens {}) resEnv fgsDemo.sp [] 100]

/-- Witness: the order with the last results that `final_gen_send` sends to a persistent generator names the default
set of its worker, though another worker holds it (and the table says so). -/
theorem C20_final_send_witness : ∃ (c : Start) (rm0 : RM) (its : List Iter) (post pre : List Ev) (wk : Work),
    mkRM 4 ["a", "b"] 0 none = some rm0 ∧ c.rm = some rm0 ∧ (∀ it ∈ its, it.uses (.persGens {}) resEnv c.sp) ∧
    c.sp.finalGenSend = true ∧ Sane (c.run its (fun _ => 0) []).1.tr ∧
    (c.run its (fun _ => 0) []).1.tr = post ++ .order 2 2 wk :: pre ∧ wk.team = some [1] ∧ holds 3 pre = [1] ∧ holds 3 (.order 2 2 wk :: pre) = [1] := by
  have key : ∃ post pre wk, (fgsDemo.run fgsIts (fun _ => 0) []).1.tr = post ++ .order 2 2 wk :: pre ∧ wk.team = some [1] ∧ holds 3 pre = [1] := by
    have h1 : (match (fgsDemo.run fgsIts (fun _ => 0) []).1.tr.drop 1 with
        | .order a b wk :: pre => decide (a = 2 ∧ b = 2 ∧ wk.team = some [1] ∧ holds 3 pre = [1]) | _ => false) = true := by decide +kernel
    split at h1
    · rename_i a b wk pre h
      simp only [decide_eq_true_eq] at h1
      obtain ⟨rfl, rfl, h1, h2⟩ := h1
      exact ⟨(fgsDemo.run fgsIts (fun _ => 0) []).1.tr.take 1, pre, wk, by rw [← h, List.take_append_drop], h1, h2⟩
    · simp at h1
  obtain ⟨post, pre, wk, h1, h2, h3⟩ := key
  refine ⟨fgsDemo, resRM, fgsIts, post, pre, wk, by decide, rfl, ?_, rfl, sane_of (by decide +kernel), h1, h2, h3, ?_⟩
  · intro it hit
    simp only [fgsIts, List.mem_cons, List.not_mem_nil, or_false] at hit
    rcases hit with rfl | rfl | rfl <;> exact bpass_uses _ _ _ _ _
  · simp only [holds]
    rw [if_neg (by simp)]
    exact h3

end Verif.Manager
