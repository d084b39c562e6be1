import Verif.Model.Tpx3

/-!
# The camera manufacturer's example converter (resources/manufacture/tpx3cam.cpp)

The repository carries the manufacturer's program that turns a raw file into text.  It is the reference for the meaning of
the packets.
-/

namespace Verif

/-- A line of `converted.txt`: the numbers before they are formatted (tpx3cam.cpp:105, 158-161, 185-188). -/
inductive RefLine where
  | trigger (s : F64)
  | hit (x y : Int) (s tot : F64)
  | global (s : F64)
  deriving DecidableEq, Repr

/-- Variables of the program (tpx3cam.cpp:33-40), without those that are only assigned.  `spidr = none`: not yet
assigned. -/
structure RefState where
  lsb : U64
  msb : U64
  spidr : Option (BitVec 16)
  tdcs : Nat
  lines : List RefLine
  deriving DecidableEq, Repr

/-- Values at the start. -/
def RefState.init : RefState := ⟨0, 0, none, 0, []⟩

/-- `trigtime_fine` (tpx3cam.cpp:96-99). -/
def refFine (w : U64) : U64 :=
  let tmpfine := (w >>> 5) &&& 0xF#64
  let tmpfine := ((tmpfine - 1#64) <<< 9) / 12#64
  (w &&& 0xE00#64) ||| (tmpfine &&& 0x1FF#64)

/-- `TDC_timestamp` (tpx3cam.cpp:95-103). -/
def refTrigger (w : U64) : F64 :=
  let coarse := F64.ofInt ((w >>> 12) &&& 0xFFFFFFFF#64).toNat
  let unit := F64.div (F64.ofRat 25) (F64.ofRat 4096)
  F64.add (F64.mul coarse (F64.ofRat (25 / 1000000000)))
    (F64.mul (F64.mul (F64.ofInt (refFine w).toNat) unit) (F64.ofRat (1 / 1000000000)))

/-- Coordinates on the chip (tpx3cam.cpp:114-118). -/
def refPixel (w : U64) : Int × Int :=
  let dcol := ((w &&& 0x0FE0000000000000#64) >>> 52).toNat
  let spix := ((w &&& 0x001F800000000000#64) >>> 45).toNat
  let pix := ((w &&& 0x0000700000000000#64) >>> 44)
  ((dcol + pix.toNat / 4 : Nat), (spix + (pix &&& 3#64).toNat : Nat))

/-- The chips of the detector (tpx3cam.cpp:133-155). -/
def refLayout (chip : Int) (p : Int × Int) : Int × Int :=
  if chip = 0 then (p.1 + 260, p.2)
  else if chip = 1 then (255 - p.1 + 260, 255 - p.2 + 260)
  else if chip = 2 then (255 - p.1, 255 - p.2 + 260)
  else p

/-- `CTOA` (tpx3cam.cpp:119-122).  `FTOA` is a `char` between 0 and 15; `~FTOA` is its complement as an `int`. -/
def refCtoa (w : U64) : Nat :=
  let toa := ((w >>> 30) &&& 0x3FFF#64).setWidth 32
  let ftoa := ((w >>> 16) &&& 0xF#64).setWidth 32
  ((toa <<< 4) ||| (~~~ ftoa &&& 0xF#32)).toNat

/-- `global_timestamp`, in nanoseconds (tpx3cam.cpp:113, 123, 126). -/
def refTimeNs (w : U64) : F64 :=
  let spidr := ((w &&& 0xFFFF#64).setWidth 16).toNat
  F64.add (F64.mul (F64.mul (F64.ofInt spidr) (F64.ofRat 25)) (F64.ofRat 16384))
    (F64.mul (F64.ofInt (refCtoa w)) (F64.div (F64.ofRat 25) (F64.ofRat 16)))

/-- `TOTns` (tpx3cam.cpp:120, 125). -/
def refTotNs (w : U64) : F64 := F64.mul (F64.ofInt ((w >>> 20) &&& 0x3FF#64).toNat) (F64.ofRat 25)

/-- The line for a hit (tpx3cam.cpp:158-161). -/
def refHit (chip : Int) (w : U64) : RefLine :=
  let p := refLayout chip (refPixel w)
  .hit p.1 p.2 (F64.div (refTimeNs w) (F64.ofRat 1000000000)) (refTotNs w)

/-- The switch over the packet type (tpx3cam.cpp:84-195).  With `spidrTime` unassigned, `diff` (line 177) is computed from an
indeterminate value.  The difference is converted to `int` and back to `unsigned long`. -/
def refPacket (chip : Int) (w : U64) (s : RefState) : Res RefState :=
  let packet := (w >>> 60).toNat
  if packet = 0x6 then .ok { s with tdcs := s.tdcs + 1, lines := s.lines ++ [.trigger (refTrigger w)] }
  else if packet = 0xb then .ok { s with spidr := some ((w &&& 0xFFFF#64).setWidth 16), lines := s.lines ++ [refHit chip w] }
  else if packet = 0x4 then
    if (w >>> 56) &&& 0xF#64 = 0x4#64 then .ok { s with lsb := (w >>> 16) &&& 0xFFFFFFFF#64 }
    else if (w >>> 56) &&& 0xF#64 = 0x5#64 then
      let msb := (w >>> 16) &&& 0xFFFF#64
      let timemaster := ((msb <<< 32) &&& 0xFFFF00000000#64) ||| s.lsb
      match s.spidr with
      | none => .ub .indeterminate
      | some t =>
        let high := (t >>> 14).setWidth 64
        let expected := (s.lsb >>> 28) &&& 0x3#64
        let diff := (high - expected).setWidth 32
        .ok { s with
          msb := if high = expected then msb else msb - diff.signExtend 64
          lines := s.lines ++ [.global (F64.mul (F64.ofInt timemaster.toNat) (F64.ofRat (25 / 1000000000)))] }
    else .ok s
  else .ok s

/-- The loop over the packets of a block (tpx3cam.cpp:64-196): `datapacket[k]` is read without a check. -/
def refPackets (ws : List U64) (chip : Int) : Nat → Nat → RefState → Res RefState
  | 0, _, s => .ok s
  | n + 1, k, s => match ws[k]? with
    | none => .ub .oobRead
    | some w => (refPacket chip w s).bind fun s => refPackets ws chip n (k + 1) s

/-- The loop over the array (tpx3cam.cpp:57-200).  The test for a header, the number of packets and the chip are read as in
`findTPX3H` (`size / 8` for a size between 0 and 65535). -/
def refLoop (ws : List U64) : Nat → Nat → RefState → Res RefState
  | 0, _, s => .ok s
  | fuel + 1, i, s => match ws[i]? with
    | none => .ok s
    | some w =>
      if isHeader w then
        (refPackets ws (headerChip w) (headerPackets w) (i + 1) s).bind fun s => refLoop ws fuel (i + headerPackets w + 1) s
      else refLoop ws fuel (i + 1) s

/-- The program on a file that can be opened (tpx3cam.cpp:45-203).  The array holds `fileLength / 8` words, but `fileLength`
bytes are read into it. -/
def refRun (file : Bytes) : Res RefState :=
  if file.length % 8 ≠ 0 then .ub .oobWrite
  else refLoop (wordsOf file) (file.length / 8 + 1) 0 RefState.init

end Verif
