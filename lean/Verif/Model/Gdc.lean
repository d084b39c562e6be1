import Verif.Model.Tpx3
import Verif.Model.Reader

/-!
# The GDC extractor (FastSophiread/src/gdc_processor.cpp, SophireadCLI/src/gdc_extractor.cpp)
-/

namespace Verif

/-- `struct GDCRecord` (gdc_processor.h:19-26). -/
structure GdcRecord where
  chip : Int
  value : U64
  offset : Nat
  deriving DecidableEq, Repr

/-- `class GDCProcessor` (gdc_processor.h:28-40): `timer_lsb32` and `gdc_timestamp` persist between calls. -/
structure GdcProc where
  timer : U64
  gdc : U64
  deriving DecidableEq, Repr

/-- A new processor (gdc_processor.h:38-39). -/
def GdcProc.new : GdcProc := ⟨0, 0⟩

/-- `char_array[0..3] == "TPX3"` (gdc_processor.cpp:38-39). -/
def isTPX3 (w : U64) : Bool :=
  byteOf w 0 == 0x54#8 && byteOf w 1 == 0x50#8 && byteOf w 2 == 0x58#8 && byteOf w 3 == 0x33#8

/-- The body of the loop for the word at `off` (gdc_processor.cpp:38-74): new chip, timestamps, and the record, if
any. -/
def gdcStep (base off : Nat) (w : U64) (chip : Int) (p : GdcProc) : Int × GdcProc × List GdcRecord :=
  if isTPX3 w then ((byteOf w 4).toInt, p, [])
  else if isGdc w then
    let mygdc := (w >>> 16) &&& 0xFFFFFFFFFFFF#64
    let high := ((mygdc >>> 40) &&& 0xF#64) == 0x5#64
    let r := updateGdc w p.timer p.gdc
    (chip, ⟨r.1, r.2⟩, if high ∧ r.2 ≠ 0 ∧ 0 ≤ chip then [⟨chip, r.2, base + off⟩] else [])
  else (chip, p, [])

/-- The loop (gdc_processor.cpp:27-77), `fuel` rounds at most. -/
def gdcLoop (data : Bytes) (base : Nat) : Nat → Nat → Int → GdcProc → Res (GdcProc × List GdcRecord)
  | 0, _, _, p => .ok (p, [])
  | fuel + 1, off, chip, p =>
    if off + 8 ≤ data.length then
      match wordAt data off with
      | none => .ub .oobRead
      | some w => do
        let s := gdcStep base off w chip p
        let r ← gdcLoop data base fuel (off + 8) s.1 s.2.1
        .ok (r.1, s.2.2 ++ r.2)
    else .ok (p, [])

/-- `GDCProcessor::processChunk` (gdc_processor.cpp:17-81).  `length / 8 + 1` rounds are enough for the loop to end. -/
def GdcProc.processChunk (p : GdcProc) (data : Bytes) (base : Nat) : Res (GdcProc × List GdcRecord) :=
  gdcLoop data base (data.length / 8 + 1) 0 (-1) p

/-- The records of successive chunks, with the running offset (gdc_extractor.cpp:118-137); the chunks are those
returned by the file reader. -/
def GdcProc.processChunks (p : GdcProc) : List Bytes → Nat → Res (List GdcRecord)
  | [], _ => .ok []
  | d :: ds, base => do
    let r ← p.processChunk d base
    let rest ← GdcProc.processChunks r.1 ds (base + d.length)
    .ok (r.2 ++ rest)

/-- A line of the CSV file (gdc_extractor.cpp:85-87): chip, value, offset, `gdc_value * 25` in 64 bits. -/
def GdcRecord.csv (r : GdcRecord) : Int × Nat × Nat × Nat := (r.chip, r.value.toNat, r.offset, (r.value * 25#64).toNat)

/-- `MIN_CHUNK_SIZE <= chunk_size <= MAX_CHUNK_SIZE` (gdc_extractor.h:28-29, gdc_extractor.cpp:63-69) with the value
computed from the argument in megabytes in 64 bits (main_gdc_extractor.cpp:43-46). -/
def gdcChunkSize? (mb : Nat) : Option Nat :=
  let n := (BitVec.ofNat 64 mb * 1024#64 * 1024#64).toNat
  if n < 1024 * 1024 ∨ 20 * 1024 * 1024 * 1024 < n then none else some n

end Verif
