import Verif.Model.Parallel
import Verif.Model.Reader

/-!
# The main loop of the command line program (SophireadCLI/src/sophiread.cpp:228-332)

The parallel loop over the batches is read sequentially here; `Props/Parallel.lean` (C18) shows that this is what
every schedule computes.
-/

namespace Verif

/-- `options.chunk_size` from the argument of `-c` (sophiread.cpp:122-124): megabytes to bytes in a 64-bit
`size_t`. -/
def chunkSizeOf (mb : Nat) : Nat := (BitVec.ofNat 64 mb * 1024#64 * 1024#64).toNat

/-- What is fixed during a run of the program. -/
structure CliCtx where
  mode : Mode
  params : AbsParams
  solve : List GaussRow → F64 × F64

/-- Events of all batches of a chunk, one after another (sophiread_core.cpp:121-176, see `ProcCtx.one`). -/
def oneAll (c : ProcCtx) : List EventBatch → Res (List EventBatch)
  | [] => .ok []
  | b :: bs => do
    let b' ← c.one b
    let bs' ← oneAll c bs
    .ok (b' :: bs')

/-- The processing of one chunk (sophiread.cpp:262-283): the batches with hits and events, and the timestamps. -/
def chunkEvents (x : CliCtx) (buf : Bytes) (c : Clock) : Res (List EventBatch × Clock) := do
  let bs ← findTPX3H buf
  let r ← locate x.mode buf bs c
  let es ← oneAll ⟨x.mode, buf, x.params, x.solve⟩ (r.1.map fun b => ⟨b, []⟩)
  .ok (es, r.2)

/-- The loop over the chunks (sophiread.cpp:252-332), at most `fuel` rounds; `none` = not ended by then.  The result
is the list of batches in the order in which they are handed to the output (289-316).  An exception in a chunk is
caught and the loop goes on; the timestamps then are those before the chunk in this model (the code may have advanced
them), which does not matter since `chunkEvents` never throws (`chunkEvents_no_throw`). -/
def cliLoop (x : CliCtx) (chunkSize : Nat) : Nat → Reader → Clock → List EventBatch →
    Res (Option (List EventBatch × Clock))
  | 0, _, _, _ => .ok none
  | fuel + 1, r, c, out =>
    if r.isEOF then .ok (some (out, c))
    else
      let k := r.readChunk chunkSize
      if k.1 = [] then .ok (some (out, c))
      else
        match chunkEvents x k.1 c with
        | .ok e => cliLoop x chunkSize fuel k.2 e.2 (out ++ e.1)
        | .throws _ => cliLoop x chunkSize fuel k.2 c out
        | .ub u => .ub u

/-- A run on a file (sophiread.cpp:214, 238-240, 252-332). -/
def cliRun (x : CliCtx) (chunkSize fuel : Nat) (file : Bytes) : Res (Option (List EventBatch × Clock)) :=
  match Reader.open file with
  | .ok r => cliLoop x chunkSize fuel r Clock.zero []
  | .throws e => .throws e
  | .ub u => .ub u

end Verif
