import Verif.Model.Base
import Verif.Model.F64

/-!
# `Hit` (FastSophiread/include/hit.h, FastSophiread/src/hit.cpp)
-/

namespace Verif

/-- `class Hit` (hit.h:98-113).  `tof = none` means that `m_tof` was never written, i.e. holds an
indeterminate value.  The `int` members are unbounded integers here: every constructor stores values
between 0 and 16383, so 32 bits never overflow. -/
structure Hit where
  x : Int
  y : Int
  tot : Int
  toa : Int
  ftoa : Int
  tof : Option U32
  spidertime : U64
  deriving DecidableEq, Repr

/-- `m_ftoa = *nTOT & 0xF` (hit.cpp:38, 111). -/
def decFtoa (w : U64) : Nat := (u16Of w 2 &&& 0xF#16).toNat

/-- `m_tot = (*nTOT >> 4) & 0x3FF` (hit.cpp:39, 112). -/
def decTot (w : U64) : Nat := ((u16Of w 2 >>> 4) &&& 0x3FF#16).toNat

/-- `m_toa = (*nTOA >> 6) & 0x3FFF` (hit.cpp:40, 113). -/
def decToa (w : U64) : Nat := ((u32Of w 3 >>> 6) &&& 0x3FFF#32).toNat

/-- `pixaddr = (*npixaddr >> 12) & 0xFFFF` (hit.cpp:70, 137). -/
def decPixaddr (w : U64) : BitVec 16 := ((u32Of w 4 >>> 12) &&& 0xFFFF#32).setWidth 16

/-- Chip-local coordinates (hit.cpp:71-75, 138-142). -/
def pixelXY (pixaddr : BitVec 16) : Int × Int :=
  let dcol := (pixaddr &&& 0xFE00#16) >>> 8
  let spix := (pixaddr &&& 0x1F8#16) >>> 1
  let pix := pixaddr &&& 0x7#16
  (((dcol.toNat : Int) + ((pix >>> 2).toNat : Int)), ((spix.toNat : Int) + ((pix &&& 0x3#16).toNat : Int)))

/-- Chip layout adjustment (hit.cpp:77-86, 148-157). -/
def layoutXY (chip : Int) (p : Int × Int) : Int × Int :=
  if chip = 0 then (p.1 + 260, p.2)
  else if chip = 1 then (255 - p.1 + 260, 255 - p.2 + 260)
  else if chip = 2 then (255 - p.1, 255 - p.2 + 260)
  else p

/-- `spidertime = 16384 * (*spider_time) + m_toa`, an `unsigned int` (hit.cpp:41). -/
def rawSpider (w : U64) : U32 := 16384#32 * (u16Of w 0).setWidth 32 + BitVec.ofNat 32 (decToa w)

/-- Extension of the 30-bit clock by the global timestamp (hit.cpp:44-53). -/
def extendSpider (spidertime : U32) (gdc : U64) : U64 :=
  let lsb30 := gdc &&& 0x3FFFFFFF#64
  let msb18 := (gdc >>> 30) &&& 0x3FFFF#64
  let sp := spidertime.setWidth 64
  let msb18 := if sp < lsb30 then msb18 + 1 else msb18
  ((msb18 <<< 30) &&& 0xFFFFC0000000#64) ||| sp

/-- `if ((m_spidertime - GDC_timestamp) >= 4e7) m_spidertime -= 1073741824` (hit.cpp:58-60).  The
unsigned 64-bit difference is converted to `double` for the comparison. -/
def fixSpider (s gdc : U64) : U64 :=
  if F64.le (F64.ofRat 40000000) (F64.ofInt ((s - gdc).toNat)) then s - 1073741824#64 else s

/-- The loop condition `m_tof * 25E-6 > 16.67` in `double` (hit.cpp:64). -/
def tofTooLarge (t : U32) : Bool :=
  F64.lt (F64.ofRat (1667 / 100)) (F64.mul (F64.ofInt t.toNat) (F64.ofRat (25 / 1000000)))

/-- `while (m_tof * 25E-6 > 16.67) m_tof -= 666667` (hit.cpp:64-66), with a bound on the number of
iterations; `none` means the loop is still running.  `hitGdc` runs it with 2^32 iterations, and
`foldTof_isSome` shows that the loop has ended by then, so the bound is not a simplification. -/
def foldTof : Nat → U32 → Option U32
  | 0, t => if tofTooLarge t then none else some t
  | n + 1, t => if tofTooLarge t then foldTof n (t - 666667#32) else some t

/-- `m_tof = m_spidertime - TDC_timestamp`: 64-bit subtraction truncated to `unsigned int`
(hit.cpp:63). -/
def rawTof (s tdc : U64) : U32 := (s - tdc).setWidth 32

/-- Constructor with global timestamp (hit.cpp:24-87). -/
def hitGdc (w : U64) (tdc gdc : U64) (chip : Int) : Hit :=
  let s := fixSpider (extendSpider (rawSpider w) gdc) gdc
  let p := layoutXY chip (pixelXY (decPixaddr w))
  { x := p.1, y := p.2, tot := decTot w, toa := decToa w, ftoa := decFtoa w,
    tof := foldTof (2 ^ 32) (rawTof s tdc), spidertime := s }

/-- `Timestamp25ns` before extension: `(*spider_time << 14) | m_toa` (hit.cpp:117). -/
def rawStamp (w : U64) : U64 := ((u16Of w 0).setWidth 64 <<< 14) ||| BitVec.ofNat 64 (decToa w)

/-- `Timestamp25ns` after the one-bit extension (hit.cpp:124-126). -/
def extendStamp (ts tdc : U64) : U64 :=
  if ts + 0x400000#64 < tdc then ts ||| 0x40000000#64 else ts

/-- Constructor without global timestamp (hit.cpp:97-158).  `m_tof` is only written if the extended
stamp is not before the trigger (hit.cpp:131-133). -/
def hitTdc (w : U64) (tdc : U64) (chip : Int) : Hit :=
  let ts := extendStamp (rawStamp w) tdc
  let p := layoutXY chip (pixelXY (decPixaddr w))
  { x := p.1, y := p.2, tot := decTot w, toa := decToa w, ftoa := decFtoa w,
    tof := if tdc ≤ ts then some ((ts - tdc).setWidth 32) else none, spidertime := ts }

namespace Hit
/-- `getTOF_ns` (hit.h:77); `none` when `m_tof` is indeterminate. -/
def tofNs (h : Hit) : Option F64 := h.tof.map fun t => F64.mul (F64.ofInt t.toNat) (F64.ofRat 25)
/-- `getTOA_ns` (hit.h:78). -/
def toaNs (h : Hit) : F64 := F64.mul (F64.ofInt h.toa) (F64.ofRat 25)
/-- `getTOT_ns` (hit.h:79). -/
def totNs (h : Hit) : F64 := F64.mul (F64.ofInt h.tot) (F64.ofRat 25)
/-- `getSPIDERTIME_ns` (hit.h:80-82). -/
def spidertimeNs (h : Hit) : F64 := F64.mul (F64.ofInt h.spidertime.toNat) (F64.ofRat 25)
/-- `getFTOA_ns` (hit.h:83), with `m_scale_to_ns_640mhz = 25.0 / 16.0` (hit.h:111-112). -/
def ftoaNs (h : Hit) : F64 := F64.mul (F64.ofInt h.ftoa) (F64.div (F64.ofRat 25) (F64.ofRat 16))
end Hit

end Verif
