import Mathlib.Logic.Function.Basic
import Verif.Model.Base

/-!
# The ring buffer of the display program (sophiread_display/mainwindow.cpp, hit_worker.cpp)

`filetohits` (producer), `Hit_worker::runme` (consumer) and `handletimer` (GUI thread) run concurrently and share plain
`int`s.  The model interleaves them in steps of one access to shared memory; that the accesses are seen in program order is
an assumption (in C++ the program has a data race).  A hit is any value; what the consumer does with it is in
`Model/DisplayWorker.lean`.
-/

namespace Verif

inductive RingActor where
  | producer | consumer | timer
  deriving DecidableEq, Repr

/-- Where `filetohits` is: in the loop at mainwindow.cpp:145, at the test at 150, before the copy at 152, before the store
at 153, or past `fileparsedone=1` at 172. -/
inductive ProducerAt where
  | wait | check | copy | publish | done
  deriving DecidableEq, Repr

/-- Where `runme` is: at the test of `killthread` (hit_worker.cpp:68), at the test of the inner loop (71), at work on the
hit (74-198), before the advance (200), or past `clusterparsedone=1` (206). -/
inductive ConsumerAt where
  | outer | inner | use | advance | exited
  deriving DecidableEq, Repr

structure Ring (α : Type) where
  /-- `myhits`; the array has 4096 elements (mainwindow.cpp:181) -/
  slots : Nat → α
  pi : Nat
  ci : Nat
  /-- number of hits `filetohits` has dealt with -/
  next : Nat
  prod : ProducerAt
  cons : ConsumerAt
  /-- hits the consumer has worked on -/
  got : List α
  fileDone : Bool
  clusterDone : Bool
  kill : Bool

namespace Ring
variable {α : Type}

/-- State after `handlereadfile` (mainwindow.cpp:291-310) and `killthread=0` (hit_worker.cpp:55); the array holds anything. -/
def init (junk : Nat → α) : Ring α := ⟨junk, 0, 0, 0, .wait, .outer, [], false, false, false⟩

/-- `(i + 1) & HSIZEM1` (mainwindow.cpp:143, hit_worker.cpp:200). -/
def after (i : Nat) : Nat := (i + 1) &&& 4095

/-- A step of `filetohits` with the hits of the file (mainwindow.cpp:143-154, 172). -/
def producerStep (hits : List α) (s : Ring α) : Ring α :=
  match s.prod with
  | .wait => match hits[s.next]? with
    | none => { s with prod := .done, fileDone := true }
    | some _ => if after s.pi = s.ci then s else { s with prod := .check }
  | .check => if after s.pi ≠ s.ci then { s with prod := .copy } else { s with prod := .wait, next := s.next + 1 }
  | .copy => match hits[s.next]? with
    | none => s
    | some h => { s with prod := .publish, slots := Function.update s.slots s.pi h }
  | .publish => { s with prod := .wait, pi := after s.pi, next := s.next + 1 }
  | .done => s

/-- A step of `runme` (hit_worker.cpp:68-206). -/
def consumerStep (s : Ring α) : Ring α :=
  match s.cons with
  | .outer => if s.kill then { s with cons := .exited, clusterDone := true } else { s with cons := .inner }
  | .inner => if s.ci ≠ s.pi then { s with cons := .use } else { s with cons := .outer }
  | .use => { s with cons := .advance, got := s.got ++ [s.slots s.ci] }
  | .advance => { s with cons := .inner, ci := after s.ci }
  | .exited => s

/-- A tick of the timer (mainwindow.cpp:266-268). -/
def timerStep (s : Ring α) : Ring α := if s.fileDone then { s with kill := true } else s

def step (hits : List α) (s : Ring α) : RingActor → Ring α
  | .producer => s.producerStep hits
  | .consumer => s.consumerStep
  | .timer => s.timerStep

/-- State after the first `n` steps of a schedule. -/
def run (hits : List α) (s : Ring α) (sched : Nat → RingActor) : Nat → Ring α
  | 0 => s
  | n + 1 => (run hits s sched n).step hits (sched n)

end Ring
end Verif
