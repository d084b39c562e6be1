import Verif.Model.Tpx3

/-!
# The legacy library (SophireadLib/src/tpx3.cpp)

The legacy `Hit` (SophireadLib/include/tpx3.h:18-98) has the members of the fast one; here `tof` is always written.
-/

namespace Verif

/-- The members of a legacy hit that do not concern time: `x`, `y`, `tot`, `toa`, `ftoa`. -/
structure LegacyFields where
  x : Int
  y : Int
  tot : Int
  toa : Int
  ftoa : Int
  deriving DecidableEq, Repr

/-- Decoding of a packet (tpx3.cpp:58-63, 93-110; the same text at 138-143, 179-199 and 223-228, 257-277). -/
def legacyFields (w : U64) (chip : Int) : LegacyFields :=
  let nTOT := u16Of w 2
  let nTOA := u32Of w 3
  let npixaddr := u32Of w 4
  let pixaddr := ((npixaddr >>> 12) &&& 0xFFFF#32).setWidth 16
  let dcol := (pixaddr &&& 0xFE00#16) >>> 8
  let spix := (pixaddr &&& 0x1F8#16) >>> 1
  let pix := pixaddr &&& 0x7#16
  let x : Int := (dcol.toNat : Int) + ((pix >>> 2).toNat : Int)
  let y : Int := (spix.toNat : Int) + ((pix &&& 0x3#16).toNat : Int)
  { x := if chip = 0 then x + 260 else if chip = 1 then 255 - x + 260 else if chip = 2 then 255 - x else x
    y := if chip = 0 then y else if chip = 1 then 255 - y + 260 else if chip = 2 then 255 - y + 260 else y
    tot := ((nTOT >>> 4) &&& 0x3FF#16).toNat
    toa := ((nTOA >>> 6) &&& 0x3FFF#32).toNat
    ftoa := (nTOT &&& 0xF#16).toNat }

/-- A hit with these members. -/
def LegacyFields.hit (f : LegacyFields) (tof : U32) (spider : U64) : Hit :=
  ⟨f.x, f.y, f.tot, f.toa, f.ftoa, some tof, spider⟩

/-- `spidertime = 16384 * (*spider_time) + toa`, an `unsigned int` (tpx3.cpp:64, 144, 229). -/
def legacySpider (w : U64) (chip : Int) : U32 :=
  16384#32 * (u16Of w 0).setWidth 32 + BitVec.ofInt 32 (legacyFields w chip).toa

/-- Extension by the global timestamp (tpx3.cpp:71-81, 236-246). -/
def legacyExtend (spidertime : U32) (gdc : U64) : U64 :=
  let lsb30 := gdc &&& 0x3FFFFFFF#64
  let msb18 := (gdc >>> 30) &&& 0x3FFFF#64
  let sp := spidertime.setWidth 64
  let msb18 := if sp < lsb30 then msb18 + 1 else msb18
  ((msb18 <<< 30) &&& 0xFFFFC0000000#64) ||| sp

/-- Constructor from a packet (tpx3.cpp:49-111). -/
def legacyHit (w tdc gdc : U64) (chip : Int) : Hit :=
  let s := legacyExtend (legacySpider w chip) gdc
  let tof : U64 := if s < tdc then s - tdc + 16666667#64 else s - tdc
  (legacyFields w chip).hit (tof.setWidth 32) s

/-- `packetToHit` (tpx3.cpp:213-281).  Before the trigger the wrapped 64-bit difference becomes a `double`, to which
`1E9 / 60.0` is added, and the sum an `unsigned int`: undefined if it does not fit. -/
def packetToHit (w tdc gdc : U64) (chip : Int) : Res Hit :=
  let s := legacyExtend (legacySpider w chip) gdc
  if s < tdc then
    match (F64.add (F64.ofInt (s - tdc).toNat) (F64.div (F64.ofRat 1000000000) (F64.ofRat 60))).toU64? with
    | some n => if n < 2 ^ 32 then .ok ((legacyFields w chip).hit (BitVec.ofNat 32 n) s) else .ub .floatToInt
    | none => .ub .floatToInt
  else .ok ((legacyFields w chip).hit ((s - tdc).setWidth 32) s)

/-- `*rollover_counter` and `*previous_time`. -/
structure Rollover where
  counter : U64
  prev : U64
  deriving DecidableEq, Repr

/-- The new counter (tpx3.cpp:154-167); `time_range` is 2^30. -/
def Rollover.next (r : Rollover) (sp : U64) : U64 :=
  if sp < r.prev then (if r.prev - sp > 536870912#64 then r.counter + 1#64 else r.counter)
  else if sp - r.prev > 536870912#64 then (if r.counter > 0#64 then r.counter - 1#64 else r.counter)
  else r.counter

/-- `packetToHitAlt` (tpx3.cpp:126-203). -/
def packetToHitAlt (w : U64) (r : Rollover) (chip : Int) : Hit × Rollover :=
  let sp := (legacySpider w chip).setWidth 64
  let c := r.next sp
  let s := sp + c * 1073741824#64
  ((legacyFields w chip).hit ((s % 666667#64).setWidth 32) s, ⟨c, sp⟩)

/-- Trigger packets (tpx3.cpp:360-369, 508-517, 595-604). -/
def legacyTdc (w gdc : U64) : U64 :=
  let mytdc := (w >>> 12) &&& 0xFFFFFFFF#64
  let lsb32 := gdc &&& 0xFFFFFFFF#64
  let msb16 := (gdc >>> 32) &&& 0xFFFF#64
  let msb16 := if mytdc < lsb32 then msb16 + 1 else msb16
  ((msb16 <<< 32) &&& 0xFFFF00000000#64) ||| mytdc

/-- Global-time packets: new `(Timer_LSB32, GDC_timestamp)` (tpx3.cpp:374-385 with a mask of 48 bits, 520-529 and 607-616
with one of 44). -/
def legacyGdc (mask w timer gdc : U64) : U64 × U64 :=
  let mygdc := (w >>> 16) &&& mask
  if (mygdc >>> 40) &&& 0xF#64 = 0x4#64 then (mygdc &&& 0xFFFFFFFF#64, gdc)
  else if (mygdc >>> 40) &&& 0xF#64 = 0x5#64 then
    (timer, (((mygdc &&& 0xFFFF#64) <<< 32) &&& 0xFFFF00000000#64) ||| timer)
  else (timer, gdc)

/-- Local variables of the readers. -/
structure LegacyState where
  roll : Rollover
  clock : Clock
  hits : List Hit

def LegacyState.init : LegacyState := ⟨⟨0#64, 0#64⟩, Clock.zero, []⟩

/-- One packet in `readTimepix3RawData` (tpx3.cpp:358-401). -/
def readPacket (chip : Int) (w : U64) (s : LegacyState) : LegacyState :=
  if isTdc w then { s with clock := { s.clock with tdc := legacyTdc w s.clock.gdc } }
  else if isGdc w then
    let r := legacyGdc 0xFFFFFFFFFFFF#64 w s.clock.timer s.clock.gdc
    { s with clock := { s.clock with timer := r.1, gdc := r.2 } }
  else if isHit w then
    let r := packetToHitAlt w s.roll chip
    { s with roll := r.2, hits := s.hits ++ [r.1] }
  else s

/-- One packet in `parseRawBytesToHits` (tpx3.cpp:593-621). -/
def parsePacket (chip : Int) (w : U64) (s : LegacyState) : LegacyState :=
  if isTdc w then { s with clock := { s.clock with tdc := legacyTdc w s.clock.gdc } }
  else if isGdc w then
    let r := legacyGdc 0xFFFFFFFFFFF#64 w s.clock.timer s.clock.gdc
    { s with clock := { s.clock with timer := r.1, gdc := r.2 } }
  else if isHit w then { s with hits := s.hits ++ [legacyHit w s.clock.tdc s.clock.gdc chip] }
  else s

/-- The loop over the packets of a batch in `readTimepix3RawData` (tpx3.cpp:350-402).  The vector is built from eight
bytes whether they exist or not, so the check of its size never fires. -/
def readPackets (buf : Bytes) (chip : Int) : Nat → Nat → LegacyState → Res (Nat × LegacyState)
  | 0, pos, s => .ok (pos, s)
  | n + 1, pos, s => match wordAt buf (pos + 8) with
    | none => .ub .oobRead
    | some w => readPackets buf chip n (pos + 8) (readPacket chip w s)

/-- The outer loop of `readTimepix3RawData` (tpx3.cpp:328-404), which ends only exactly at the end of the buffer; each
round goes at least eight bytes further, so `fuel` is never used up (`c51_read_iff` covers all outcomes). -/
def readLoop (buf : Bytes) : Nat → Nat → LegacyState → Res LegacyState
  | 0, _, s => .ok s
  | fuel + 1, pos, s =>
    if pos = buf.length then .ok s
    else match wordAt buf pos with
      | none => .ub .oobRead
      | some w =>
        if isHeader w then
          match readPackets buf (headerChip w) (headerPackets w) pos s with
          | .ok r => readLoop buf fuel (r.1 + 8) r.2
          | .throws e => .throws e
          | .ub u => .ub u
        else readLoop buf fuel (pos + 8) s

/-- `readTimepix3RawData` (tpx3.cpp:289-408) for a file that can be opened. -/
def readTimepix3RawData (buf : Bytes) : Res (List Hit) :=
  (readLoop buf (buf.length / 8 + 2) 0 LegacyState.init).bind fun s => .ok s.hits

/-- The loop over the packets of a batch in `parseRawBytesToHits` (tpx3.cpp:584-622): the guard allows the position to
reach the end, where the next packet is read. -/
def parsePackets (buf : Bytes) (chip : Int) : Nat → Nat → LegacyState → Res (Nat × LegacyState)
  | 0, pos, s => .ok (pos, s)
  | n + 1, pos, s =>
    if buf.length < pos + 8 then parsePackets buf chip n pos s
    else match wordAt buf (pos + 8) with
      | none => .ub .oobRead
      | some w => parsePackets buf chip n (pos + 8) (parsePacket chip w s)

/-- The outer loop of `parseRawBytesToHits` (tpx3.cpp:571-624).  Computing `i + 8` beyond the end of the buffer is taken as
harmless. -/
def parseLoop (buf : Bytes) : Nat → Nat → LegacyState → Res LegacyState
  | 0, _, s => .ok s
  | fuel + 1, pos, s =>
    if pos + 8 < buf.length then
      match wordAt buf pos with
      | none => .ub .oobRead
      | some w =>
        if isHeader w then
          match parsePackets buf (headerChip w) (headerPackets w) pos s with
          | .ok r => parseLoop buf fuel (r.1 + 8) r.2
          | .throws e => .throws e
          | .ub u => .ub u
        else parseLoop buf fuel (pos + 8) s
    else .ok s

/-- `parseRawBytesToHits` (tpx3.cpp:546-627). -/
def parseRawBytesToHits (buf : Bytes) : Res (List Hit) :=
  (parseLoop buf (buf.length / 8 + 2) 0 LegacyState.init).bind fun s => .ok s.hits

/-- Default constructor (tpx3.h:21-28). -/
def defaultHit : Hit := ⟨0, 0, 0, 0, 0, some 0#32, 0#64⟩

/-- Headers found by `fastParseTPX3Raw` (tpx3.cpp:430-442): every word with at least one byte behind it. -/
def fastHeaders (buf : Bytes) : List U64 :=
  ((List.range (buf.length / 8)).filter fun k => 8 * k + 8 < buf.length).filterMap (fun k => wordAt buf (8 * k))
    |>.filter isHeader

/-- `fastParseTPX3Raw` (tpx3.cpp:418-475): as many default hits as the headers announce packets; the sum is an `int`. -/
def fastParseTPX3Raw (buf : Bytes) : Res (List Hit) :=
  let total := ((fastHeaders buf).map headerPackets).sum
  if total < 2 ^ 31 then .ok (List.replicate total defaultHit) else .ub .signedOverflow

end Verif
