import Verif.Model.SelfCheck

/-!
# benchmark_raw2hits and benchmark_raw2events with their threads (FastSophiread/benchmarks)

`tbb::parallel_for` runs the body once for every sub-range of a partition of the indices, on any threads and in any order.  A call of
`extractHits` works on one batch and only reads `raw_data`; it is one step.  The numbers of hits are `int` in the code and counted without
a bound here.  Left out: timers and speeds.
-/

namespace Verif

/-- The batches and, for every sub-range handed out, the indices that are still to do. -/
structure ExtractState where
  batches : List Batch
  todo : List (List Nat)
  deriving DecidableEq

/-- One body does its next batch (benchmark_raw2hits.cpp:53-57).  A call with undefined behaviour has no successor. -/
def ExtractStep (buf : Bytes) (s s' : ExtractState) : Prop :=
  ∃ j i rest b b', s.todo[j]? = some (i :: rest) ∧ s.batches[i]? = some b ∧ extractHits .gdc buf b = .ok b' ∧
    s' = ⟨s.batches.set i b', s.todo.set j rest⟩

/-- Any number of steps of any bodies. -/
inductive ExtractReach (buf : Bytes) : ExtractState → ExtractState → Prop
  | refl (s) : ExtractReach buf s s
  | step {s s' s''} : ExtractReach buf s s' → ExtractStep buf s' s'' → ExtractReach buf s s''

/-- Nothing is left to do: `parallel_for` returns. -/
def ExtractState.done (s : ExtractState) : Prop := ∀ t ∈ s.todo, t = []

/-- What a run of the program reports: the exit code and the two numbers of hits. -/
structure Raw2HitsEnd where
  code : Nat
  counts : List Nat
  deriving DecidableEq, Repr

/-- `main` (benchmark_raw2hits.cpp:75-97): the runs that end.  `args` are the arguments after the name of the program, `file` is the content
of the file named first, if it can be opened (disk_io.cpp:24-49 ends the program otherwise). -/
inductive Raw2HitsRun (args : List (List Char)) (file : Option Bytes) : Raw2HitsEnd → Prop
  | usage : args = [] → Raw2HitsRun args file ⟨1, []⟩
  | noFile : args ≠ [] → file = none → Raw2HitsRun args file ⟨1, []⟩
  | counts (buf : Bytes) (n : Nat) (bs : List Batch) (ranges : List (List Nat)) (s : ExtractState) : args ≠ [] → file = some buf →
      raw2hits buf = .ok n → findTPX3H buf = .ok bs → ranges.flatten.Perm (List.range bs.length) → ExtractReach buf ⟨bs, ranges⟩ s →
      s.done → Raw2HitsRun args file ⟨0, [n, (s.batches.flatMap Batch.hits).length]⟩

/-- `run_multi_thread(raw_data, true)` of benchmark_raw2events.cpp:174-218, which `main` does not call (line 243): the numbers of hits and of
bad hits of the runs that end.  The bodies are those of `ProcCtx.Step`; its statement `setMethod` sets the method that the object has
anyway, and the events, which the code drops, are kept with the batch. -/
inductive Raw2EventsThreads (solve : List GaussRow → F64 × F64) (buf : Bytes) : Nat → Nat → Prop
  | counts (bs : List Batch) (r : List Batch × Clock) (ranges : List (List Nat)) (s : ParState) (bad : Nat) :
      findTPX3H buf = .ok bs → locate .gdc buf bs Clock.zero = .ok r → ranges.flatten.Perm (List.range r.1.length) →
      ProcCtx.Reach ⟨.gdc, buf, mmapParams, solve⟩
        ⟨r.1.map fun b => ⟨b, []⟩, ranges.map (ProcCtx.spawn ⟨.gdc, buf, mmapParams, solve⟩)⟩ s → s.done →
      checkBadTof (s.batches.flatMap fun e => e.batch.hits) = .ok bad →
      Raw2EventsThreads solve buf (s.batches.flatMap fun e => e.batch.hits).length bad

end Verif
