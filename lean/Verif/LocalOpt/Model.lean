/-
A local optimization run of APOSMM and the process it runs in:
libensemble/gen_funcs/aposmm_localopt_support.py.

`LocalOptInterfacer` (the parent, inside the generator) starts a process for one run of a local
optimizer (the child).  The two share *one* `multiprocessing.Queue`, used in both directions, and
two `multiprocessing.Event`s.  Every statement of either side that touches one of them is one step
here, and the steps of the two sides interleave in any order.

`multiprocessing.Queue.put` only appends to a buffer in the calling process; a feeder thread of
that process moves the entries on to the pipe later.  So a message has three places to be in:
`pbuf` (the parent's buffer), `cbuf` (the child's) and `pipe`; the feeders are steps of their own.
`get` takes from the pipe and blocks while it is empty.

Not modelled: what an optimizer computes.  It is an arbitrary function `opt` of the values its
calls of the objective have returned so far, and takes one step to decide (so: its own computation
ends).  `x_on_cube` is an arbitrary type with an arbitrary comparison for each of the two
`np.allclose`s.  The three forms of the tuple of `iterate` (lines 168-173) are one payload.
-/

namespace Verif.LocalOpt

/-- What a local optimizer does next: ask for the value at a point (a call of its objective, that
is of `put_set_wait_get`, lines 728-753), end with a point and a flag (`finish_queue`, lines
721-725) or raise an exception (caught by `opt_runner`, lines 650-655). -/
inductive Req (X : Type) where
  | ask (x : X)
  | stop (x : X) (flag : Nat)
  | raise
  deriving DecidableEq, Repr

/-- What can be in the queue: a point (line 738), a `ConvergedMsg` (line 724), an `ErrorMsg` (line
654), or the parent's tuple (lines 168-173). -/
inductive Msg (X F : Type) where
  | pt (x : X)
  | conv (x : X) (flag : Nat)
  | err
  | val (x : X) (f : F)
  deriving DecidableEq, Repr

/-- A run: the starting point, the optimizer, and the comparisons of lines 151-153 (`same0`) and
748-751 (`same`: the point asked for with the point that came back). -/
structure Sys (X F : Type) where
  x0 : X
  opt : List (X × F) → Req X
  same0 : X → X → Bool
  same : X → X → Bool

/-- Where the parent is. -/
inductive PPc (X F : Type) where
  /-- line 146 -/
  | initWait
  /-- line 147 -/
  | initGet
  /-- between calls of the interfacer's methods -/
  | idle
  /-- line 166, in `iterate(v)` -/
  | clear (v : X × F)
  /-- lines 168-173 -/
  | put (v : X × F)
  /-- line 175 -/
  | set
  /-- line 176 -/
  | wait
  /-- line 178 -/
  | get
  /-- line 199, in the `close` of line 182 -/
  | join
  /-- `is_running` is False (line 202) -/
  | closed
  /-- an exception left the constructor (lines 149, 153) or `iterate` (line 180) -/
  | failed
  deriving DecidableEq, Repr

/-- Where the child is. -/
inductive CPc (X F : Type) where
  /-- inside the optimizer -/
  | run
  /-- lines 738, 724 and 654: about to put `m` -/
  | out (m : Msg X F)
  /-- lines 741, 725 and 655: `m` has been put, about to set `parent_can_read` -/
  | tell (m : Msg X F)
  /-- line 743, having asked for `x` -/
  | wait (x : X)
  /-- line 745 -/
  | get (x : X)
  /-- line 746, having got `v` -/
  | clear (x : X) (v : X × F)
  /-- lines 748-751 -/
  | check (x : X) (v : X × F)
  /-- `opt_runner` has returned -/
  | exiting
  /-- the process has ended -/
  | dead
  /-- line 745 gave something that is not one of the parent's tuples -/
  | confused
  deriving DecidableEq, Repr

/-- The two processes and what they share.  `got`: the values that the optimizer's calls have
returned.  Two histories: `sent`, the arguments of the calls of `iterate`; `ans`, what the parent
took from the queue. -/
structure St (X F : Type) where
  ppc : PPc X F
  cpc : CPc X F
  pbuf : List (Msg X F)
  pipe : List (Msg X F)
  cbuf : List (Msg X F)
  /-- `parent_can_read` -/
  pcr : Bool
  /-- `child_can_read` -/
  ccr : Bool
  got : List (X × F)
  sent : List (X × F)
  ans : List (Msg X F)
  deriving DecidableEq, Repr

/-- Right after line 144: both events are clear (lines 102, 104 and 138), the process runs. -/
def St.init {X F : Type} : St X F :=
  { ppc := .initWait, cpc := .run, pbuf := [], pipe := [], cbuf := [], pcr := false, ccr := false,
    got := [], sent := [], ans := [] }

/-- What the child puts for what the optimizer does (lines 738, 724, 654). -/
def Req.msg {X F : Type} : Req X → Msg X F
  | .ask x => .pt x
  | .stop x b => .conv x b
  | .raise => .err

/-- Where the child goes after line 741, 725 or 655: into the wait of line 743 after a point,
out of `opt_runner` after the others. -/
def after {X F : Type} : Msg X F → CPc X F
  | .pt x => .wait x
  | _ => .exiting

/-- After line 745: any tuple goes on, anything else is not what the callback expects. -/
def received {X F : Type} (x : X) : Msg X F → CPc X F
  | .val y f => .clear x (y, f)
  | _ => .confused

/-- After line 147: lines 148-153.  `np.allclose` of a `ConvergedMsg` raises as well. -/
def firstPc {X F : Type} (σ : Sys X F) : Msg X F → PPc X F
  | .pt x => if σ.same0 x σ.x0 then .idle else .failed
  | _ => .failed

/-- After line 178: lines 179-186. -/
def nextPc {X F : Type} : Msg X F → PPc X F
  | .err => .failed
  | .conv _ _ => .join
  | _ => .idle

/-- What causes a step. -/
inductive Ev (X F : Type) where
  /-- a statement of one of the two sides, or a feeder thread -/
  | tau
  /-- the generator calls `iterate(v)` -/
  | call (v : X × F)
  /-- the generator calls `destroy()` (persistent_aposmm.py:790) -/
  | destroy
  /-- the operating system ends the child: not caused by this code -/
  | crash
  deriving DecidableEq, Repr

/-- The steps. -/
inductive Step {X F : Type} (σ : Sys X F) : St X F → Ev X F → St X F → Prop where
  /-- line 146: `wait` returns when the event is set -/
  | initWait {s} (h : s.ppc = .initWait) (hr : s.pcr = true) :
      Step σ s .tau { s with ppc := .initGet }
  /-- lines 147-153 -/
  | initGet {s m q} (h : s.ppc = .initGet) (hq : s.pipe = m :: q) :
      Step σ s .tau { s with ppc := firstPc σ m, pipe := q, ans := s.ans ++ [m] }
  /-- line 155 -/
  | call {s} (v : X × F) (h : s.ppc = .idle) :
      Step σ s (.call v) { s with ppc := .clear v, sent := s.sent ++ [v] }
  /-- line 166 -/
  | pClear {s v} (h : s.ppc = .clear v) : Step σ s .tau { s with ppc := .put v, pcr := false }
  /-- lines 168-173 -/
  | pPut {s v} (h : s.ppc = .put v) :
      Step σ s .tau { s with ppc := .set, pbuf := s.pbuf ++ [.val v.1 v.2] }
  /-- line 175 -/
  | pSet {s} (h : s.ppc = .set) : Step σ s .tau { s with ppc := .wait, ccr := true }
  /-- line 176 -/
  | pWait {s} (h : s.ppc = .wait) (hr : s.pcr = true) : Step σ s .tau { s with ppc := .get }
  /-- lines 178-186 -/
  | pGet {s m q} (h : s.ppc = .get) (hq : s.pipe = m :: q) :
      Step σ s .tau { s with ppc := nextPc m, pipe := q, ans := s.ans ++ [m] }
  /-- lines 199-202: `join` returns when the process has ended -/
  | pJoin {s} (h : s.ppc = .join) (hd : s.cpc = .dead) : Step σ s .tau { s with ppc := .closed }
  /-- the optimizer decides -/
  | cRun {s} (h : s.cpc = .run) : Step σ s .tau { s with cpc := .out (σ.opt s.got).msg }
  /-- lines 738, 724, 654 -/
  | cPut {s m} (h : s.cpc = .out m) :
      Step σ s .tau { s with cpc := .tell m, cbuf := s.cbuf ++ [m] }
  /-- lines 741, 725, 655 -/
  | cTell {s m} (h : s.cpc = .tell m) : Step σ s .tau { s with cpc := after m, pcr := true }
  /-- line 743 -/
  | cWait {s x} (h : s.cpc = .wait x) (hr : s.ccr = true) : Step σ s .tau { s with cpc := .get x }
  /-- line 745 -/
  | cGet {s x m q} (h : s.cpc = .get x) (hq : s.pipe = m :: q) :
      Step σ s .tau { s with cpc := received x m, pipe := q }
  /-- line 746 -/
  | cClear {s x v} (h : s.cpc = .clear x v) :
      Step σ s .tau { s with cpc := .check x v, ccr := false }
  /-- lines 748-753: the assertion passes and the callback returns the values -/
  | cCheck {s x v} (h : s.cpc = .check x v) (hs : σ.same x v.1 = true) :
      Step σ s .tau { s with cpc := .run, got := s.got ++ [v] }
  /-- lines 748-751: the assertion fails; the exception leaves the optimizer (lines 653-654) -/
  | cFail {s x v} (h : s.cpc = .check x v) (hs : σ.same x v.1 = false) :
      Step σ s .tau { s with cpc := .out .err }
  /-- the process ends once its feeder thread has nothing left -/
  | cExit {s} (h : s.cpc = .exiting) (hb : s.cbuf = []) : Step σ s .tau { s with cpc := .dead }
  /-- the parent's feeder thread -/
  | pFeed {s m q} (h : s.pbuf = m :: q) :
      Step σ s .tau { s with pbuf := q, pipe := s.pipe ++ [m] }
  /-- the child's feeder thread -/
  | cFeed {s m q} (h : s.cbuf = m :: q) :
      Step σ s .tau { s with cbuf := q, pipe := s.pipe ++ [m] }
  /-- lines 188-195, 199-202: the process is killed and joined.  The generator does this for all its
  runs when it ends, also when one of them has raised (persistent_aposmm.py:299-303), but only for
  those whose constructor has returned -/
  | destroy {s} (h : s.ppc = .idle ∨ (s.ppc = .failed ∧ s.sent ≠ [])) :
      Step σ s .destroy { s with ppc := .closed, cpc := .dead, cbuf := [] }
  /-- the child dies without a word -/
  | crash {s} (h : s.cpc ≠ .dead) : Step σ s .crash { s with cpc := .dead, cbuf := [] }

/-- The states that can arise, as long as nothing outside this code ends the child. -/
inductive Reach {X F : Type} (σ : Sys X F) : St X F → Prop where
  | init : Reach σ St.init
  | step {s e s'} (h : Reach σ s) (hs : Step σ s e s') (he : e ≠ .crash) : Reach σ s'

/-- `n` steps of the two processes and their feeder threads, without a call of the generator. -/
inductive Run {X F : Type} (σ : Sys X F) : Nat → St X F → St X F → Prop where
  | nil (s) : Run σ 0 s s
  | cons {n s t u} (h : Step σ s .tau t) (r : Run σ n t u) : Run σ (n + 1) s u

end Verif.LocalOpt
