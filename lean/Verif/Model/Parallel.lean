import Verif.Model.Pipeline
import Verif.Model.Abs

/-!
# The parallel loop of `timedProcessing` (SophireadCLI/src/sophiread_core.cpp:121-176)

`tbb::parallel_for` splits the index range into sub-ranges and runs the body once per sub-range, on any threads and
in any order.  Assumed contract: the sub-ranges partition the range.  Every running body is a worker with its own
clustering object; the statements of a body are the atomic steps.  A statement works on one batch and the worker's own
object only (`chunk` is read only), so a finer grain adds no further shared accesses.
-/

namespace Verif

/-- A batch with its neutron events (tpx3_fast.h: `struct TPX3`, members `hits` and `neutrons`). -/
structure EventBatch where
  batch : Batch
  neutrons : List Neutron
  deriving DecidableEq

/-- The next statement of the loop body (sophiread_core.cpp:138-145, 160-167). -/
inductive Phase where
  | extract
  | reset
  | setMethod
  | fit
  | getEvents
  deriving DecidableEq, Repr

/-- A running body: the indices still to do (the current one first), the next statement, and `abs_alg_mt`. -/
structure Worker where
  todo : List Nat
  phase : Phase
  alg : AbsObj
  deriving DecidableEq

/-- What is fixed during the loop. -/
structure ProcCtx where
  mode : Mode
  chunk : Bytes
  params : AbsParams
  solve : List GaussRow → F64 × F64

/-- One statement: new batch, object, and next statement; `none` = the iteration is finished. -/
def ProcCtx.stmt (c : ProcCtx) (ph : Phase) (alg : AbsObj) (b : EventBatch) : Res (EventBatch × AbsObj × Option Phase) :=
  match ph with
  | .extract => do
    let b' ← extractHits c.mode c.chunk b.batch
    .ok ({ b with batch := b' }, alg, some .reset)
  | .reset => .ok (b, alg.reset, some .setMethod)
  | .setMethod => .ok (b, alg.setMethod "centroid", some .fit)
  | .fit => do
    let alg' ← alg.fit b.batch.hits
    .ok (b, alg', some .getEvents)
  | .getEvents => do
    let es ← alg.getEvents c.solve b.batch.hits
    .ok ({ b with neutrons := es }, alg, none)

/-- The shared batches and the workers. -/
structure ParState where
  batches : List EventBatch
  workers : List Worker

/-- A new body for a sub-range (sophiread_core.cpp:133-136, 155-158). -/
def ProcCtx.spawn (c : ProcCtx) (range : List Nat) : Worker := ⟨range, .extract, AbsObj.new c.params⟩

/-- The worker after a statement of the iteration for `i`: at the next statement, or at the next index. -/
def Worker.after (i : Nat) (rest : List Nat) (alg : AbsObj) : Option Phase → Worker
  | some ph => ⟨i :: rest, ph, alg⟩
  | none => ⟨rest, .extract, alg⟩

/-- One step of worker `j`: it executes its next statement on its current batch.  (A statement with undefined
behaviour has no successor.) -/
def ProcCtx.Step (c : ProcCtx) (s s' : ParState) : Prop :=
  ∃ (j : Nat) (w : Worker) (i : Nat) (rest : List Nat) (b b' : EventBatch) (alg' : AbsObj) (next : Option Phase),
    s.workers[j]? = some w ∧ w.todo = i :: rest ∧ s.batches[i]? = some b ∧
    c.stmt w.phase w.alg b = .ok (b', alg', next) ∧
    s'.batches = s.batches.set i b' ∧
    s'.workers = s.workers.set j (Worker.after i rest alg' next)

/-- Any number of steps of any workers. -/
inductive ProcCtx.Reach (c : ProcCtx) : ParState → ParState → Prop
  | refl (s) : Reach c s s
  | step {s s' s''} : Reach c s s' → c.Step s' s'' → Reach c s s''

/-- The loop has ended: nothing is left to do. -/
def ParState.done (s : ParState) : Prop := ∀ w ∈ s.workers, w.todo = []

/-- The body for one batch with a new clustering object: the sequential reading of the loop. -/
def ProcCtx.one (c : ProcCtx) (b : EventBatch) : Res EventBatch := do
  let b' ← extractHits c.mode c.chunk b.batch
  let alg ← (AbsObj.new c.params).fit b'.hits
  let es ← alg.getEvents c.solve b'.hits
  .ok ⟨b', es⟩

end Verif
