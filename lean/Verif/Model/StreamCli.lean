import Verif.Model.Legacy

/-!
# Model of the streaming program

`sophiread/SophireadStreamCLI/src/sophiread_stream.cpp`: a reader thread that decodes the file and puts hits into a
queue, and a processor thread that takes them out and clusters them in batches.

The queue `moodycamel::BlockingReaderWriterQueue` is taken to be what it documents: a linearizable FIFO for one producer
and one consumer.  The flag `done` (line 17) is a plain `bool` written by one thread and read by the other, which is a
data race; the model gives it the meaning of an atomic flag (sequential consistency), so what is proved to go wrong goes
wrong even then, and what is proved to go right needs the compiler not to exploit the race.
-/

namespace Verif

/-! ## The reader's input -/

/-- A `std::ifstream` as far as the reader uses it: contents, position, and whether the end-of-file bit is set.
`reads` counts the calls of `read`, to give every array that a call leaves unfilled its own arbitrary contents. -/
structure IStream where
  file : Bytes
  pos : Nat
  eof : Bool
  reads : Nat

/-- The eight bytes of the local array after `read` stored `got` (fewer than eight) in front: the rest keeps what the
array held, which is indeterminate (lines 72 and 86 declare the arrays without initialiser). -/
def mixWord (got : Bytes) (junk : U64) : U64 := BitVec.ofNat 64 (leNat (got ++ (bytesOf junk).drop got.length))

/-- sophiread_stream.cpp:73 and 87, `file.read(buf, 8)`.  Once the end-of-file bit is set `read` stores nothing.  If
fewer than eight bytes are left they are stored and the bit is set (together with the fail bit). -/
def IStream.read8 (junk : Nat → U64) (s : IStream) : U64 × IStream :=
  if s.eof then (junk s.reads, { s with reads := s.reads + 1 })
  else if s.pos + 8 ≤ s.file.length then
    (BitVec.ofNat 64 (leNat ((s.file.drop s.pos).take 8)), { s with pos := s.pos + 8, reads := s.reads + 1 })
  else (mixWord (s.file.drop s.pos) (junk s.reads),
    { s with pos := s.file.length, eof := true, reads := s.reads + 1 })

/-! ## The reader -/

/-- Timestamps and the hits put into the queue so far, in order. -/
structure StreamState where
  clock : Clock
  sent : List Hit

/-- sophiread_stream.cpp:89-128, one data packet.  `packetToHit` (tpx3.cpp of SophireadLib) is `packetToHit` of
`Model.Legacy`; the 44-bit mask of line 107 is the one of the legacy parser. -/
def streamPacket (chip : Int) (w : U64) (s : StreamState) : Res StreamState :=
  if isTdc w then .ok { s with clock := { s.clock with tdc := legacyTdc w s.clock.gdc } }
  else if isGdc w then
    let r := legacyGdc 0xFFFFFFFFFFF#64 w s.clock.timer s.clock.gdc
    .ok { s with clock := { s.clock with timer := r.1, gdc := r.2 } }
  else if isHit w then
    (packetToHit w s.clock.tdc s.clock.gdc chip).bind fun h => .ok { s with sent := s.sent ++ [h] }
  else .ok s

/-- sophiread_stream.cpp:84-130, the loop over the packets of a batch. -/
def streamPackets' (junk : Nat → U64) (chip : Int) : Nat → IStream → StreamState → Res (IStream × StreamState)
  | 0, f, s => .ok (f, s)
  | n + 1, f, s =>
    let r := f.read8 junk
    (streamPacket chip r.1 s).bind fun s' => streamPackets' junk chip n r.2 s'

/-- sophiread_stream.cpp:71-133, the loop over the file.  `fuel` bounds the number of rounds; it is shown never to run
out.  Line 78 takes the chip id from an `unsigned char`, so it is not negative here. -/
def streamLoop (junk : Nat → U64) : Nat → IStream → StreamState → Res (Option StreamState)
  | 0, f, s => if f.eof then .ok (some s) else .ok none
  | fuel + 1, f, s =>
    if f.eof then .ok (some s)
    else
      let r := f.read8 junk
      if isHeader r.1 then
        (streamPackets' junk (byteOf r.1 4).toNat (headerPackets r.1) r.2 s).bind fun x => streamLoop junk fuel x.1 x.2
      else streamLoop junk fuel r.2 s

/-- sophiread_stream.cpp:42-135: the hits put into the queue by `reader` for a file that can be opened.  `junk` is what
the unfilled parts of the local arrays happen to hold. -/
def streamReader (junk : Nat → U64) (file : Bytes) : Res (Option (List Hit)) :=
  (streamLoop junk (file.length / 8 + 2) ⟨file, 0, false, 0⟩ ⟨Clock.zero, []⟩).bind fun r =>
    .ok (r.map StreamState.sent)

/-! ## The two threads -/

/-- sophiread_stream.cpp:18. -/
def streamBatch : Nat := 10000

/-- Where the processor thread is: at the test of `done` (line 143), at `try_dequeue` (line 145), at the test of
`size_approx` (line 157), at `wait_dequeue` (line 159), or finished. -/
inductive ProcPhase where
  | test
  | tryDequeue
  | drainTest
  | drainDequeue
  | finished
  deriving DecidableEq, Repr

/-- State of the program.  `todo`: hits the reader still has to put into the queue; `opened`: whether the file could be
opened (line 64); `readerDone`: the reader thread has returned; `flag`: the variable `done`; `out`: the batches given
to `process_batch`, in order.  `α` is the type of hits. -/
structure StreamSys (α : Type) where
  todo : List α
  opened : Bool
  readerDone : Bool
  flag : Bool
  queue : List α
  phase : ProcPhase
  batch : List α
  out : List (List α)

/-- At the start; `hits` is what the reader will put into the queue (nothing for a file that cannot be opened). -/
def StreamSys.init {α : Type} (opened : Bool) (hits : List α) : StreamSys α :=
  ⟨if opened then hits else [], opened, false, false, [], .test, [], []⟩

/-- One step of the reader thread: line 127 for one hit, or line 134 and return; a file that could not be opened
makes it return at line 66 without setting `done`. -/
def StreamSys.readerStep {α : Type} (s : StreamSys α) : StreamSys α :=
  if s.readerDone then s
  else match s.todo with
    | h :: hs => { s with todo := hs, queue := s.queue ++ [h] }
    | [] => { s with readerDone := true, flag := s.flag || s.opened }

/-- One step of the processor thread (lines 141-165).  At an empty queue `wait_dequeue` blocks: no change. -/
def StreamSys.procStep {α : Type} (s : StreamSys α) : StreamSys α :=
  match s.phase with
  | .test => if s.flag then { s with phase := .drainTest, batch := [] } else { s with phase := .tryDequeue }
  | .tryDequeue => match s.queue with
    | [] => { s with phase := .test }
    | h :: q =>
      if streamBatch ≤ (s.batch ++ [h]).length then
        { s with queue := q, phase := .test, batch := [], out := s.out ++ [s.batch ++ [h]] }
      else { s with queue := q, phase := .test, batch := s.batch ++ [h] }
  | .drainTest =>
    if s.queue ≠ [] then { s with phase := .drainDequeue }
    else if s.batch ≠ [] then { s with phase := .finished, out := s.out ++ [s.batch] }
    else { s with phase := .finished }
  | .drainDequeue => match s.queue with
    | [] => s
    | h :: q => { s with queue := q, phase := .drainTest, batch := s.batch ++ [h] }
  | .finished => s

/-- A schedule says which thread takes the next step (`true`: reader). -/
def StreamSys.run {α : Type} (sched : Nat → Bool) (s : StreamSys α) : Nat → StreamSys α
  | 0 => s
  | n + 1 => if sched n then (s.run sched n).readerStep else (s.run sched n).procStep

end Verif
