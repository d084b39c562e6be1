import Verif.Model.Parallel
import Verif.Model.StreamCli
import Verif.Model.Display
import Verif.Spec.Race

/-!
# Which memory the concurrent parts of the programs touch

For every step of the concurrent models the accesses to memory that other threads can reach.  What the thread keeps for
itself (local variables, position) is not listed.
-/

namespace Verif
open Verif.Spec

/-! ## The parallel loop (SophireadCLI/src/sophiread_core.cpp:121-176) -/

/-- `chunk`; the entry of `batches[i]` without its neutrons; the neutrons; `*abs_alg_mt` of body `j` (a local variable of
the body, so never shared, listed all the same). -/
inductive LoopLoc where
  | chunk
  | entry (i : Nat)
  | neutrons (i : Nat)
  | alg (j : Nat)
  deriving DecidableEq, Repr

/-- Body `worker` executes statement `phase` for `batches[index]`. -/
structure LoopStep where
  worker : Nat
  index : Nat
  phase : Phase
  deriving DecidableEq, Repr

/-- sophiread_core.cpp:139 (and 161): `extractHits(tpx3, chunk)` reads the chunk and reads and writes the entry; 141-142:
`reset`, `set_method` write the object; 143: `fit` reads the hits and reads and writes the object; 145: `get_events` reads
the hits and the object, and its result is stored. -/
def LoopStep.touches (l : LoopStep) : List (Access LoopLoc) :=
  match l.phase with
  | .extract => [⟨.chunk, false⟩, ⟨.entry l.index, false⟩, ⟨.entry l.index, true⟩]
  | .reset => [⟨.alg l.worker, false⟩, ⟨.alg l.worker, true⟩]
  | .setMethod => [⟨.alg l.worker, false⟩, ⟨.alg l.worker, true⟩]
  | .fit => [⟨.entry l.index, false⟩, ⟨.alg l.worker, false⟩, ⟨.alg l.worker, true⟩]
  | .getEvents => [⟨.entry l.index, false⟩, ⟨.alg l.worker, false⟩, ⟨.neutrons l.index, true⟩]

def LoopStep.action (l : LoopStep) : Action LoopLoc := ⟨l.worker, l.touches⟩

/-- `ProcCtx.Step` with the name of the step. -/
def ProcCtx.StepBy (c : ProcCtx) (l : LoopStep) (s s' : ParState) : Prop :=
  ∃ (w : Worker) (rest : List Nat) (b b' : EventBatch) (alg' : AbsObj) (next : Option Phase),
    s.workers[l.worker]? = some w ∧ w.todo = l.index :: rest ∧ w.phase = l.phase ∧ s.batches[l.index]? = some b ∧
    c.stmt w.phase w.alg b = .ok (b', alg', next) ∧
    s'.batches = s.batches.set l.index b' ∧
    s'.workers = s.workers.set l.worker (Worker.after l.index rest alg' next)

/-- A run of the loop with the names of its steps in order. -/
inductive ProcCtx.RunBy (c : ProcCtx) : ParState → List LoopStep → ParState → Prop
  | nil (s) : RunBy c s [] s
  | snoc {s s' s'' ls l} : RunBy c s ls s' → c.StepBy l s' s'' → RunBy c s (ls ++ [l]) s''

/-- The bodies of a loop do not synchronise with each other. -/
def loopExecution (ls : List LoopStep) : Execution LoopLoc := ⟨ls.map LoopStep.action, fun _ _ => False⟩

/-- What a location holds. -/
inductive LoopVal where
  | bytes (b : Bytes)
  | batch (b : Option Batch)
  | neutrons (n : Option (List Neutron))
  | alg (a : Option AbsObj)

def loopValue (c : ProcCtx) (s : ParState) : LoopLoc → LoopVal
  | .chunk => .bytes c.chunk
  | .entry i => .batch (s.batches[i]?.map EventBatch.batch)
  | .neutrons i => .neutrons (s.batches[i]?.map EventBatch.neutrons)
  | .alg j => .alg (s.workers[j]?.map Worker.alg)

/-! ## The streaming program (SophireadStreamCLI/src/sophiread_stream.cpp) -/

/-- The only variable that both threads use without the queue: `bool done` (line 17).  `neutron_events` is used by the
processor, and by `main` after joining it. -/
inductive StreamLoc where
  | done
  deriving DecidableEq, Repr

/-- The accesses of the next step of a thread (`true`: reader): line 134 writes `done`, line 143 reads it. -/
def StreamSys.touches {α : Type} (s : StreamSys α) : Bool → List (Access StreamLoc)
  | true => if s.readerDone = false ∧ s.todo = [] ∧ s.opened = true then [⟨.done, true⟩] else []
  | false => if s.phase = .test then [⟨.done, false⟩] else []

/-- Whether the next step of a thread is an operation on the queue: lines 127, 145, 157 and 159. -/
def StreamSys.usesQueue {α : Type} (s : StreamSys α) : Bool → Prop
  | true => s.readerDone = false ∧ s.todo ≠ []
  | false => s.phase = .tryDequeue ∨ s.phase = .drainTest ∨ s.phase = .drainDequeue

/-- The first `n` steps.  Every operation on the queue is taken to synchronise with every later one, which is more than
any queue provides. -/
def streamExecution {α : Type} (s : StreamSys α) (sched : Nat → Bool) (n : Nat) : Execution StreamLoc :=
  ⟨(List.range n).map fun k => ⟨if sched k then 0 else 1, (s.run sched k).touches (sched k)⟩,
   fun i j => (s.run sched i).usesQueue (sched i) ∧ (s.run sched j).usesQueue (sched j)⟩

def streamValue {α : Type} (s : StreamSys α) : StreamLoc → Bool
  | .done => s.flag

/-! ## The display program (sophiread_display) -/

/-- The members of `hitinfo` and `Hit_worker` that the three threads use (mainwindow.h:43-55, hit_worker.h:35), and the
elements of `myhits`. -/
inductive RingLoc where
  | pi
  | ci
  | slot (k : Nat)
  | fileDone
  | clusterDone
  | kill
  deriving DecidableEq, Repr

/-- mainwindow.cpp:143-154, 172 (producer), hit_worker.cpp:68-206 (consumer), mainwindow.cpp:266-272 (timer). -/
def Ring.touches {α : Type} (hits : List α) (s : Ring α) : RingActor → List (Access RingLoc)
  | .producer => match s.prod with
    | .wait => if s.next < hits.length then [⟨.pi, false⟩, ⟨.ci, false⟩] else [⟨.fileDone, true⟩]
    | .check => [⟨.pi, false⟩, ⟨.ci, false⟩]
    | .copy => if s.next < hits.length then [⟨.pi, false⟩, ⟨.slot s.pi, true⟩] else []
    | .publish => [⟨.pi, false⟩, ⟨.pi, true⟩]
    | .done => []
  | .consumer => match s.cons with
    | .outer => ⟨.kill, false⟩ :: if s.kill then [⟨.clusterDone, true⟩] else []
    | .inner => [⟨.ci, false⟩, ⟨.pi, false⟩]
    | .use => [⟨.ci, false⟩, ⟨.slot s.ci, false⟩]
    | .advance => [⟨.ci, false⟩, ⟨.ci, true⟩]
    | .exited => []
  | .timer => ⟨.fileDone, false⟩ :: if s.fileDone then [⟨.kill, true⟩, ⟨.clusterDone, false⟩] else []

def RingActor.number : RingActor → Nat
  | .producer => 0
  | .consumer => 1
  | .timer => 2

/-- The first `n` steps; plain `int`s do not synchronise. -/
def ringExecution {α : Type} (hits : List α) (s : Ring α) (sched : Nat → RingActor) (n : Nat) : Execution RingLoc :=
  ⟨(List.range n).map fun k => ⟨(sched k).number, (s.run hits sched k).touches hits (sched k)⟩, fun _ _ => False⟩

/-- A slot of the ring. -/
def RingLoc.isSlot : RingLoc → Bool
  | .slot _ => true
  | _ => false

/-- Not the program as it is, but with `pi`, `ci` and the flags declared `std::atomic<int>`: only the slots are left as
ordinary memory, a store to `pi` synchronises with the later loads of it (hit_worker.cpp:71), and a store to `ci` with the
later loads of it (mainwindow.cpp:150). -/
def atomicRingExecution {α : Type} (hits : List α) (s : Ring α) (sched : Nat → RingActor) (n : Nat) : Execution RingLoc :=
  ⟨(List.range n).map fun k =>
    ⟨(sched k).number, ((s.run hits sched k).touches hits (sched k)).filter fun a => a.loc.isSlot⟩,
   fun i j => (sched i = .producer ∧ (s.run hits sched i).prod = .publish ∧
        sched j = .consumer ∧ (s.run hits sched j).cons = .inner) ∨
      (sched i = .consumer ∧ (s.run hits sched i).cons = .advance ∧
        sched j = .producer ∧ (s.run hits sched j).prod = .check)⟩

/-- What a location holds. -/
inductive RingVal (α : Type) where
  | index (n : Nat)
  | hit (a : α)
  | flag (b : Bool)

def ringValue {α : Type} (s : Ring α) : RingLoc → RingVal α
  | .pi => .index s.pi
  | .ci => .index s.ci
  | .slot k => .hit (s.slots k)
  | .fileDone => .flag s.fileDone
  | .clusterDone => .flag s.clusterDone
  | .kill => .flag s.kill

end Verif
