import Verif.Model.Generator

/-!
# The program that generates the roll-over test data (SophireadLib/tests/generate_fake_tpx3_data.cpp)

`main` writes a header and 26 hit packets to `rollover_test_data.tpx3`, prints the time of each, reads the file again and prints the times
that it finds.  The model takes the packets and the number of bytes of the header as arguments.
-/

namespace Verif

/-- The arguments of one call of `packPixelHit`. -/
structure GenPacket where
  spider : U64
  ftoa : U64
  tot : U64
  toa : U64
  pix : U64
  deriving DecidableEq, Repr

/-- The packet written for them. -/
def GenPacket.word (a : GenPacket) : U64 := packPixelHit a.spider a.ftoa a.tot a.toa a.pix

/-- The time printed by `packPixelHit` (generate_fake_tpx3_data.cpp:68-69). -/
def GenPacket.printed (a : GenPacket) : Nat := ((a.spider <<< 14) ||| a.toa).toNat

/-- The time printed for a packet that was read (generate_fake_tpx3_data.cpp:247-265).  `spider_time1 << 14` is computed as an `int`, whose
31 bits are enough for the 16 of an `unsigned short`. -/
def genReadTime (w : U64) : Nat :=
  let spider := (w.setWidth 16 &&& 0xFFFF#16).setWidth 32
  let toa := ((w >>> 30).setWidth 16 &&& 0x3FFF#16).setWidth 32
  ((spider <<< 14) ||| toa : U32).toNat

/-- What a run leaves: exit code, times printed on writing and on reading, the file. -/
structure GenRun where
  code : Nat
  printed : List Nat
  checked : List Nat
  file : Option Bytes
  deriving DecidableEq, Repr

/-- `main` (generate_fake_tpx3_data.cpp:74-270).  `room`: bytes for which there is room; a failed `write` is not looked at.  The reading
loop takes whole words; the first of them is the header, and after a read that fails no other succeeds. -/
def generator (canWrite canRead : Bool) (room : Nat) (numBytes : U64) (ps : List GenPacket) (old : Option Bytes) : GenRun :=
  if canWrite then
    let header := packDataHeader 0x54#64 0x50#64 0x58#64 0x33#64 0#64 0#64 numBytes
    let file := (bytesOf header ++ ps.flatMap fun a => bytesOf a.word).take room
    let printed := ps.map GenPacket.printed
    if canRead then ⟨0, printed, ((wordsOf file).drop 1).map genReadTime, some file⟩
    else ⟨1, printed, [], some file⟩
  else ⟨1, [], [], old⟩

/-- The packets of `main` (generate_fake_tpx3_data.cpp:89-215). -/
def rolloverPackets : List GenPacket :=
  [0xF000#64, 0xFF00#64, 0xFFFF#64, 0x000F#64, 0x00FF#64, 0x0FFF#64, 0x2FFF#64, 0x000F#64, 0x3FFF#64, 0x00FF#64, 0x0FFF#64,
   0x1FFF#64, 0x2FFF#64, 0x000F#64, 0x00FF#64, 0x0FFF#64, 0x2FFF#64, 0xF000#64, 0xFF00#64, 0xFFFF#64, 0x000F#64, 0x00FF#64,
   0x0FFF#64, 0x1FFF#64, 0x2FFF#64, 0x3FFF#64].map fun s => ⟨s, 0xFF#64, 0x3FF#64, 0x3FFF#64, 0x9876#64⟩

end Verif
