import Verif.Model.Tpx3

/-!
# Reading a file in the display program (`filetohits`, sophiread_display/mainwindow.cpp:27-174)

The hits are collected in a list in the order in which they are written to the ring (`Model/Display.lean`).
-/

namespace Verif

/-- `struct newRawPacket` (mainwindow.h:34-42). -/
structure DisplayHit where
  ftoa : Int
  tot : Int
  toa : Int
  x : Int
  y : Int
  spdr : Int
  tof : U32
  deriving DecidableEq, Repr

/-- A local `char[128]`, of which only the first eight bytes are used; `none` is a byte never written. -/
abbrev CharBuf := List (Option Byte)

/-- `fread(&buf[0], 1, 8, infile)` got these bytes; the others stay as they were. -/
def CharBuf.fill (b : CharBuf) (got : Bytes) : CharBuf := got.map some ++ b.drop got.length

def CharBuf.byte (b : CharBuf) (k : Nat) : Res Byte :=
  match b.getD k none with
  | some x => .ok x
  | none => .ub .indeterminate

/-- All eight bytes as a word.  Byte 7 is only ever written together with the others, so that a test of byte 7 is defined
exactly if this is. -/
def CharBuf.word (b : CharBuf) : Res U64 :=
  match b.mapM id with
  | some l => .ok (BitVec.ofNat 64 (leNat l))
  | none => .ub .indeterminate

/-- `inbytes[0]=='T' && inbytes[1]=='P' && inbytes[2]=='X'` (mainwindow.cpp:67). -/
def CharBuf.isTPX (b : CharBuf) : Res Bool := do
  if (← b.byte 0) ≠ 0x54#8 then return false
  if (← b.byte 1) ≠ 0x50#8 then return false
  return (← b.byte 2) = 0x58#8

/-- Variables of `filetohits`.  `tofs` are the indices at which `mytofhisto` was incremented. -/
structure ParseState where
  rest : Bytes
  inbytes : CharBuf
  data : CharBuf
  tdc : U64
  hits : List DisplayHit
  tofs : List Int
  bytesRead : Nat
  headers : Nat
  tdcs : Nat
  gdcs : Nat
  deriving Repr

/-- Position in the picture (mainwindow.cpp:125-139). -/
def displayXY (chip : Int) (p : Int × Int) : Int × Int :=
  if chip = 0 then (p.1 + 256, p.2)
  else if chip = 1 then (511 - p.1, 511 - p.2)
  else if chip = 2 then (255 - p.1, 511 - p.2)
  else p

/-- `mynewraw.tof = mynewraw.spdrtime - mytdc` (mainwindow.cpp:115): `unsigned long` arithmetic, then `unsigned int`. -/
def displayTof (w tdc : U64) : U32 := ((rawSpider w).setWidth 64 - tdc).setWidth 32

/-- The hit of a packet (mainwindow.cpp:99-139); the expressions are those of `hit.cpp` but for the layout.  `spdrtime` is
less than 2^30, so the `int` does not overflow. -/
def displayHit (chip : Int) (w tdc : U64) : DisplayHit :=
  let p := displayXY chip (pixelXY (decPixaddr w))
  { ftoa := decFtoa w, tot := decTot w, toa := decToa w, x := p.1, y := p.2, spdr := (rawSpider w).toNat,
    tof := displayTof w tdc }

/-- `itof=(int)(mynewraw.tof*0.25)` and the increment of `mytofhisto`, which has 170000 elements
(mainwindow.cpp:117-123, 182).  The position is the one on the chip. -/
def tofIndex (w tdc : U64) : Res (List Int) :=
  match (F64.mul (F64.ofInt (displayTof w tdc).toNat) (F64.ofRat (1 / 4))).toI32? with
  | none => .ub .floatToInt
  | some itof =>
    let p := pixelXY (decPixaddr w)
    if itof < 170000 ∧ 250 < p.1 ∧ p.1 < 425 ∧ 125 < p.2 ∧ p.2 < 325 then
      (if itof < 0 then .ub .oobWrite else .ok [itof])
    else .ok []

/-- One data packet (mainwindow.cpp:83-166). -/
def displayPacket (chip : Int) (w : U64) (s : ParseState) : Res ParseState :=
  if isHit w then do
    let t ← tofIndex w s.tdc
    return { s with hits := s.hits ++ [displayHit chip w s.tdc], tofs := s.tofs ++ t }
  else if isTdc w then .ok { s with tdc := (w >>> 12) &&& 0x3fffffff#64, tdcs := s.tdcs + 1 }
  else if isGdc w then .ok { s with gdcs := s.gdcs + 1 }
  else .ok s

/-- The loop over the packets of a chunk (mainwindow.cpp:78-167): the number of bytes read is not looked at, so that at the
end of the file `data` keeps old bytes. -/
def displayPackets (chip : Int) : Nat → ParseState → Res ParseState
  | 0, s => .ok s
  | n + 1, s => do
    let s := { s with data := s.data.fill (s.rest.take 8), rest := s.rest.drop 8,
                      bytesRead := s.bytesRead + (s.rest.take 8).length }
    let w ← s.data.word
    displayPackets chip n (← displayPacket chip w s)

/-- `dwords` (mainwindow.cpp:71-72): `char` is signed, `>>` rounds down. -/
def displayWords (b7 b6 : Byte) : Int := (256 * b7.toInt + b6.toInt) / 8

/-- The outer loop (mainwindow.cpp:58-170), which ends when no byte is left; `fuel` counts rounds, each of which takes at
least one byte.  `inbytes[4]` is read only when a hit is decoded; byte 7 is known then, and so is byte 4. -/
def displayLoop : Nat → ParseState → Res ParseState
  | 0, s => .ok s
  | fuel + 1, s =>
    if s.rest = [] then .ok s
    else do
      let s := { s with inbytes := s.inbytes.fill (s.rest.take 8), rest := s.rest.drop 8,
                        bytesRead := s.bytesRead + (s.rest.take 8).length }
      if (← s.inbytes.isTPX) then do
        let n := displayWords (← s.inbytes.byte 7) (← s.inbytes.byte 6)
        displayLoop fuel (← displayPackets (← s.inbytes.byte 4).toInt n.toNat { s with headers := s.headers + 1 })
      else displayLoop fuel s

/-- `filetohits` (mainwindow.cpp:27-174) for a file that can be opened. -/
def fileToHits (file : Bytes) : Res ParseState :=
  displayLoop (file.length + 1)
    ⟨file, List.replicate 8 none, List.replicate 8 none, 0#64, [], [], 0, 0, 0, 0⟩

end Verif
