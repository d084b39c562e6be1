import Verif.Model.Hit

/-!
# Header scan and packet processing (FastSophiread/src/tpx3_fast.cpp, include/tpx3_fast.h)
-/

namespace Verif

/-- The running timestamps (`tdc_timestamp`, `gdc_timestamp`, `timer_lsb32`). -/
structure Clock where
  tdc : U64
  gdc : U64
  timer : U64
  deriving DecidableEq, Repr

/-- All timestamps zero, as at program start. -/
def Clock.zero : Clock := ⟨0, 0, 0⟩

/-- `struct TPX3` (tpx3_fast.h:24-55), without `neutrons` (see `Model/Pipeline.lean`).  `numPackets` is
a natural number: `findTPX3H` only produces 0..8191. -/
structure Batch where
  index : Nat
  numPackets : Nat
  chip : Int
  hits : List Hit
  clock : Clock
  deriving DecidableEq, Repr

/-- Constructor of `TPX3` (tpx3_fast.h:38-46). -/
def Batch.new (index numPackets : Nat) (chip : Int) : Batch :=
  { index, numPackets, chip, hits := [], clock := Clock.zero }

/-- `char_array[0] == 'T' && char_array[1] == 'P' && char_array[2] == 'X'` (tpx3_fast.cpp:61). -/
def isHeader (w : U64) : Bool :=
  byteOf w 0 == 0x54#8 && byteOf w 1 == 0x50#8 && byteOf w 2 == 0x58#8

/-- `data_packet_num` (tpx3_fast.cpp:62-64). -/
def headerPackets (w : U64) : Nat :=
  (((0xff#32 &&& (byteOf w 7).signExtend 32) <<< 8) ||| (0xff#32 &&& (byteOf w 6).signExtend 32)).toNat >>> 3

/-- `chip_layout_type = static_cast<int>(char_array[4])`, `char` is signed (tpx3_fast.cpp:65). -/
def headerChip (w : U64) : Int := (byteOf w 4).toInt

/-- `findTPX3H(begin, end)` (tpx3_fast.cpp:44-72): `off` is `iter - begin`.  The loop condition
guarantees that the word is inside the buffer; the model still goes through the checked read. -/
def findLoop (buf : Bytes) (fuel off : Nat) : Res (List Batch) :=
  match fuel with
  | 0 => .ok []
  | fuel + 1 =>
    if 8 ≤ buf.length - off then
      match wordAt buf off with
      | none => .ub .oobRead
      | some w => do
        let rest ← findLoop buf fuel (off + 8)
        if isHeader w then .ok (Batch.new off (headerPackets w) (headerChip w) :: rest)
        else .ok rest
    else .ok []

/-- `findTPX3H(raw_bytes)` (tpx3_fast.cpp:134-147).  `length / 8 + 1` rounds are enough for the loop to
run to its end (`findLoop_eq`). -/
def findTPX3H (buf : Bytes) : Res (List Batch) := findLoop buf (buf.length / 8 + 1) 0

/-- `findTPX3H(begin, end, consumed)` (tpx3_fast.cpp:85-126): stops after `len` batches; `count` is
`batch_number`.  Returns the batches and `consumed`; on `break` the increment of `consumed` in the loop
header is skipped. -/
def findLimLoop (buf : Bytes) (len : Nat) (fuel off count : Nat) : Res (List Batch × Nat) :=
  match fuel with
  | 0 => .ok ([], off)
  | fuel + 1 =>
    if 8 ≤ buf.length - off then
      match wordAt buf off with
      | none => .ub .oobRead
      | some w =>
        if isHeader w then
          let b := Batch.new off (headerPackets w) (headerChip w)
          if len ≤ count + 1 then .ok ([b], off)
          else do
            let r ← findLimLoop buf len fuel (off + 8) (count + 1)
            .ok (b :: r.1, r.2)
        else findLimLoop buf len fuel (off + 8) count
    else .ok ([], off)

/-- `findTPX3H(raw_bytes, consumed)` (tpx3_fast.cpp:156-172) with limit `len`
(`_get_max_batch_len()`, never 0, tpx3_fast.cpp:25-32). -/
def findTPX3HLim (buf : Bytes) (len : Nat) : Res (List Batch × Nat) :=
  findLimLoop buf len (buf.length / 8 + 1) 0 0

/-- `update_tdc_timestamp(char_array, gdc, tdc)` (tpx3_fast.cpp:343-363). -/
def updateTdcGdc (w : U64) (gdc : U64) : U64 :=
  let mytdc := (w >>> 12) &&& 0xFFFFFFFF#64
  let lsb32 := gdc &&& 0xFFFFFFFF#64
  let msb16 := (gdc >>> 32) &&& 0xFFFF#64
  let msb16 := if mytdc < lsb32 then msb16 + 1 else msb16
  ((msb16 <<< 32) &&& 0xFFFF00000000#64) ||| mytdc

/-- `update_tdc_timestamp(char_array, tdc)` (tpx3_fast.cpp:371-393). -/
def updateTdcOnly (w : U64) (tdc : U64) : U64 :=
  let mytdc := (w >>> 12) &&& 0xFFFFFFFF#64
  let high := tdc &&& 0xFFFF00000000#64
  let low := tdc &&& 0xFFFFFFFF#64
  let high := if mytdc < low ∧ 0x80000000#64 < low - mytdc then high + 0x100000000#64 else high
  high ||| mytdc

/-- `update_gdc_timestamp_and_timer_lsb32` (tpx3_fast.cpp:402-430): returns the new
`(timer_lsb32, gdc_timestamp)`. -/
def updateGdc (w : U64) (timer gdc : U64) : U64 × U64 :=
  let mygdc := (w >>> 16) &&& 0xFFFFFFFFFFFF#64
  let sel := (mygdc >>> 40) &&& 0xF#64
  if sel = 0x4#64 then (mygdc &&& 0xFFFFFFFF#64, gdc)
  else if sel = 0x5#64 then
    let tmp := (((mygdc &&& 0xFFFF#64) <<< 32) &&& 0xFFFF00000000#64) ||| timer
    (timer, if tmp ≠ 0 then tmp else gdc)
  else (timer, gdc)

/-- `char_array[7] == 0x6F` (tpx3_fast.cpp:464, 512). -/
def isTdc (w : U64) : Bool := byteOf w 7 == 0x6F#8
/-- `(char_array[7] & 0xF0) == 0x40` (tpx3_fast.cpp:467). -/
def isGdc (w : U64) : Bool := (byteOf w 7 &&& 0xF0#8) == 0x40#8
/-- `(char_array[7] & 0xF0) == 0xb0` (tpx3_fast.cpp:471, 515). -/
def isHit (w : U64) : Bool := (byteOf w 7 &&& 0xF0#8) == 0xb0#8

/-- One packet in global-clock mode (tpx3_fast.cpp:463-478): new timestamps and the hit appended, if
any. -/
def stepGdc (extract : Bool) (chip : Int) (w : U64) (c : Clock) : Clock × List Hit :=
  if isTdc w then ({ c with tdc := updateTdcGdc w c.gdc }, [])
  else if isGdc w then
    let r := updateGdc w c.timer c.gdc
    ({ c with timer := r.1, gdc := r.2 }, [])
  else if isHit w then
    (c, if extract ∧ c.tdc ≠ 0 ∧ c.gdc ≠ 0 then [hitGdc w c.tdc c.gdc chip] else [])
  else (c, [])

/-- One packet in trigger-only mode (tpx3_fast.cpp:511-525). -/
def stepTdc (extract : Bool) (chip : Int) (w : U64) (c : Clock) : Clock × List Hit :=
  if isTdc w then ({ c with tdc := updateTdcOnly w c.tdc }, [])
  else if isHit w then
    (c, if extract ∧ c.tdc ≠ 0 then [hitTdc w c.tdc chip] else [])
  else (c, [])

/-- Clock mode: with global clock (`useGDC`, tpx3_fast.cpp:446) or trigger only (tpx3_fast.cpp:495). -/
inductive Mode where
  | gdc
  | tdc
  deriving DecidableEq, Repr

/-- The packet dispatch of the mode. -/
def step (m : Mode) (extract : Bool) (chip : Int) (w : U64) (c : Clock) : Clock × List Hit :=
  match m with
  | .gdc => stepGdc extract chip w c
  | .tdc => stepTdc extract chip w c

/-- `process_tpx3_packets` (tpx3_fast.cpp:450-479, 498-526): `n` rounds left, `pos` is
`bytes_iter - bytes_begin`.  The guard only looks at the first byte of the next packet. -/
def processLoop (m : Mode) (extract : Bool) (chip : Int) (buf : Bytes) :
    Nat → Nat → Clock → List Hit → Res (Clock × List Hit)
  | 0, _, c, hs => .ok (c, hs)
  | n + 1, pos, c, hs =>
    if buf.length ≤ pos + 8 then processLoop m extract chip buf n pos c hs
    else
      match wordAt buf (pos + 8) with
      | none => .ub .oobRead
      | some w =>
        let r := step m extract chip w c
        processLoop m extract chip buf n (pos + 8) r.1 (hs ++ r.2)

/-- `updateTimestamp` (tpx3_fast.cpp:187-198; TDC-only 249-257): stores the running timestamps in the
batch and advances them over the batch.  The TDC-only overload stores only the trigger timestamp. -/
def updateTimestamp (m : Mode) (buf : Bytes) (b : Batch) (c : Clock) : Res (Batch × Clock) := do
  let stored : Clock := match m with
    | .gdc => c
    | .tdc => { b.clock with tdc := c.tdc }
  let r ← processLoop m false b.chip buf b.numPackets b.index c b.hits
  .ok ({ b with clock := stored, hits := r.2 }, r.1)

/-- `extractHits` (tpx3_fast.cpp:281-284), `extractHitsTDC` (299-302): the references passed to the
packet loop are the batch's own fields, so they are advanced too. -/
def extractHits (m : Mode) (buf : Bytes) (b : Batch) : Res Batch := do
  let r ← processLoop m true b.chip buf b.numPackets b.index b.clock b.hits
  .ok { b with clock := r.1, hits := r.2 }

end Verif
