import Verif.Model.Tpx3

/-!
# From a buffer to hits (SophireadCLI/src/sophiread_core.cpp, FastSophiread callers)
-/

namespace Verif

/-- `timedLocateTimeStamp` (sophiread_core.cpp:74-89, 101-112): `updateTimestamp` on every batch in order,
carrying the timestamps along. -/
def locate (m : Mode) (buf : Bytes) : List Batch → Clock → Res (List Batch × Clock)
  | [], c => .ok ([], c)
  | b :: bs, c => do
    let r ← updateTimestamp m buf b c
    let s ← locate m buf bs r.2
    .ok (r.1 :: s.1, s.2)

/-- Hit extraction of all batches, one after another (the sequential reading of the loop in
sophiread_core.cpp:121-176; test_tpx3.cpp:272-274).  See `Model/Parallel.lean` for the parallel loop. -/
def extractAll (m : Mode) (buf : Bytes) : List Batch → Res (List Batch)
  | [] => .ok []
  | b :: bs => do
    let b' ← extractHits m buf b
    let bs' ← extractAll m buf bs
    .ok (b' :: bs')

/-- One chunk of the command line program up to the hits (sophiread.cpp:266-283): find headers, locate
timestamps, extract.  Returns the batches and the timestamps carried to the next chunk. -/
def processBuffer (m : Mode) (buf : Bytes) (c : Clock) : Res (List Batch × Clock) := do
  let bs ← findTPX3H buf
  let r ← locate m buf bs c
  let bs' ← extractAll m buf r.1
  .ok (bs', r.2)

/-- One round of the loop over a large buffer with limited batches (test_tpx3.cpp:256-292,
benchmark_mmap.cpp:278-385): scan at most `len` headers from offset `o`, process the batches on the
`consumed` bytes, continue `consumed` bytes further. -/
def limitedRound (m : Mode) (buf : Bytes) (len : Nat) (o : Nat) (c : Clock) :
    Res (List Batch × Nat × Clock) := do
  let f ← findTPX3HLim (buf.drop o) len
  let sub := (buf.drop o).take f.2
  let r ← locate m sub f.1 c
  let bs ← extractAll m sub r.1
  .ok (bs, o + f.2, r.2)

/-- The loop itself (`while (raw_data_consumed < max)`), run for at most `fuel` rounds; `none` means it has
not ended by then. -/
def limitedRun (m : Mode) (buf : Bytes) (len : Nat) : Nat → Nat → Clock → List Hit → Res (Option (List Hit × Clock))
  | 0, o, c, hs => if o < buf.length then .ok none else .ok (some (hs, c))
  | fuel + 1, o, c, hs =>
    if o < buf.length then
      match limitedRound m buf len o c with
      | .ok (bs, o', c') => limitedRun m buf len fuel o' c' (hs ++ bs.flatMap Batch.hits)
      | .throws e => .throws e
      | .ub u => .ub u
    else .ok (some (hs, c))

end Verif
