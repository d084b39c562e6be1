import Verif.Model.CliMain

/-!
# Running out of memory in the command line program (SophireadCLI/src/sophiread.cpp:252-332)

Every round of the loop over the chunks allocates: the chunk itself (disk_io.cpp:490-491), the list of batches (tpx3_fast.cpp:46-48), hits,
labels and events (sophiread_core.cpp:121-176), columns and entries of the output (disk_io.cpp:593-601, 648-652, sophiread_core.cpp:251-266).
A failed allocation throws `std::bad_alloc`, which is derived from `std::exception`: line 329 catches it and the loop goes on.
`timedLocateTimeStamp` allocates nothing.

Simplified: one failure per round at most; a group that `appendHitsToHDF5Extendible` created before the failure is left out (it has no
datasets); an undefined operation in the processing counts even if the failure comes first, one in the search for batches does not count if
the search fails; the allocations before the loop, whose failure
ends the program with code 1 (line 370), are left out.
-/

namespace Verif

/-- The part of the output of a batch that fails (sophiread.cpp:286-289, 292-295, 298-303). -/
inductive MemStage where
  | hits
  | events
  | images
  deriving DecidableEq, Repr

/-- Where a round fails. -/
inductive MemFault where
  | none
  /-- the chunk is not allocated; `currentPosition` is unchanged (disk_io.cpp:490-492) -/
  | read
  /-- the batches are not found; the timestamps are unchanged -/
  | find
  /-- hits or events are not made; the timestamps are those after the chunk -/
  | process
  /-- the output fails at batch `i` of the chunk -/
  | output (i : Nat) (st : MemStage)
  deriving DecidableEq, Repr

/-- The output of the batch that fails, as far as it gets (sophiread.cpp:286-303).  An exception of the HDF5 library leaves the program as
in `outputBatch`. -/
def memBatch (o : ProgramOptions) (st : MemStage) (b : EventBatch) (w : Outputs) : Res (Outputs × Leave) :=
  match st with
  | .hits => .ok (w, .normal)
  | .events => match (if o.outHits = [] then .ok w.hits else appendHits none (fun _ => none) b.batch.hits w.hits : Res H5) with
    | .ub u => .ub u
    | .throws _ => .ok (w, .terminate)
    | .ok h => .ok ({ w with hits := h }, .normal)
  | .images => match (if o.outHits = [] then .ok w.hits else appendHits none (fun _ => none) b.batch.hits w.hits : Res H5) with
    | .ub u => .ub u
    | .throws _ => .ok (w, .terminate)
    | .ok h => match (if o.outEvents = [] then .ok (w.events, false)
        else appendNeutrons none (fun _ => none) b.neutrons w.events : Res (H5 × Bool)) with
      | .ub u => .ub u
      | .throws _ => .ok ({ w with hits := h }, .terminate)
      | .ok (e, true) => .ok ({ w with hits := h, events := e }, .terminate)
      | .ok (e, false) => .ok ({ w with hits := h, events := e }, .normal)

/-- Output of the batches of a chunk (sophiread.cpp:284-314), up to the failure. -/
def memOutput (o : ProgramOptions) (sr : F64) (edges : List F64) (f : MemFault) (bs : List EventBatch) (w : Outputs) :
    Res (Outputs × Leave) :=
  match f with
  | .process => .ok (w, .normal)
  | .output i st => match outputBatches o sr edges (fun _ => {}) 0 (bs.take i) w with
    | .ok (w', .normal) => match bs[i]? with
      | some b => memBatch o st b w'
      | none => .ok (w', .normal)
    | r => r
  | _ => outputBatches o sr edges (fun _ => {}) 0 bs w

/-- The loop over the chunks (sophiread.cpp:252-332); `mf k` is the failure of round `k`. -/
def memLoop (o : ProgramOptions) (x : CliCtx) (sr : F64) (edges : List F64) (mf : Nat → MemFault) :
    Nat → Nat → Reader → Clock → Outputs → Res LoopEnd
  | 0, _, _, _, _ => .ok .running
  | fuel + 1, k, r, c, w =>
    if r.isEOF then .ok (.finished w)
    else if mf k = .read then memLoop o x sr edges mf fuel (k + 1) r c w
    else if (r.readChunk o.chunkSize).1 = [] then .ok (.finished w)
    else if mf k = .find then memLoop o x sr edges mf fuel (k + 1) (r.readChunk o.chunkSize).2 c w
    else match chunkEvents x (r.readChunk o.chunkSize).1 c with
      | .ub u => .ub u
      | .throws _ => memLoop o x sr edges mf fuel (k + 1) (r.readChunk o.chunkSize).2 c w
      | .ok e => match memOutput o sr edges (mf k) e.1 w with
        | .ub u => .ub u
        | .throws _ => memLoop o x sr edges mf fuel (k + 1) (r.readChunk o.chunkSize).2 e.2 w
        | .ok (w', .terminate) => .ok (.terminated w')
        | .ok (w', .normal) => memLoop o x sr edges mf fuel (k + 1) (r.readChunk o.chunkSize).2 e.2 w'

/-- From the open input file to the end of the loop, as `mainCore` (sophiread.cpp:215-332). -/
def memCore (o : ProgramOptions) (s : Settings) (solve : List GaussRow → F64 × F64) (mf : Nat → MemFault) (fuel : Nat)
    (file : Bytes) : Res LoopEnd :=
  match Reader.open file with
  | .throws e => .throws e
  | .ub u => .ub u
  | .ok r =>
    if o.outHits = o.input ∨ o.outEvents = o.input then .ub .oobRead
    else if o.outHits ≠ [] ∧ o.outHits = o.outEvents then .ok (.terminated ⟨[], [], [], 0, 0⟩)
    else match (if o.needsImages then s.edges.bind fun es => (initImages s.sr es).bind fun im => .ok (es, im)
        else .ok ([], []) : Res (List F64 × Stack)) with
      | .throws e => .throws e
      | .ub u => .ub u
      | .ok (es, im) => memLoop o ⟨o.mode, s.params, solve⟩ s.sr es mf fuel 0 r Clock.zero ⟨[], [], im, 0, 0⟩

end Verif
