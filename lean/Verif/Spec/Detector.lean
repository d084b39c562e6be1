import Verif.Spec.Stream

/-!
# Specification of the detector: true times and how they are sent

All times are counted in ticks of 25 ns from the start of the detector.  The packets carry only their low bits.
-/

namespace Verif.Spec

open Verif

/-- What happens at the detector. -/
inductive Signal where
  /-- A trigger (start of a pulse) at time `t`. -/
  | trigger (t : Nat)
  /-- The detector sends its clock `t`. -/
  | clock (t : Nat)
  /-- A pixel fires at time `t`; column and row on the chip, time over threshold, fine time. -/
  | pixel (t col row tot ftoa : Nat)

/-- Pixel address: double column, super pixel, pixel in the super pixel. -/
def pixelAddress (col row : Nat) : Nat := col / 2 * 2 ^ 9 + row / 4 * 2 ^ 3 + col % 2 * 2 ^ 2 + row % 4

/-- The packets of a signal (Timepix3 data format).  The trigger carries 32 bits of its time, the clock comes in two halves of 32 and
16 bits, a pixel carries 30 bits of its time, the upper 16 of which come last. -/
def Signal.packets : Signal → List U64
  | .trigger t => [BitVec.ofNat 64 (0x6F * 2 ^ 56 + t % 2 ^ 32 * 2 ^ 12)]
  | .clock t => [BitVec.ofNat 64 (0x44 * 2 ^ 56 + t % 2 ^ 32 * 2 ^ 16), BitVec.ofNat 64 (0x45 * 2 ^ 56 + t / 2 ^ 32 % 2 ^ 16 * 2 ^ 16)]
  | .pixel t col row tot ftoa =>
    [BitVec.ofNat 64 (0xB * 2 ^ 60 + pixelAddress col row * 2 ^ 44 + t % 2 ^ 14 * 2 ^ 30 + tot * 2 ^ 20 + ftoa * 2 ^ 16 +
      t / 2 ^ 14 % 2 ^ 16)]

/-- The last trigger and the last clock sent; 0 if there was none. -/
structure Past where
  trigger : Nat
  clock : Nat

def Past.after (p : Past) : Signal → Past
  | .trigger t => { p with trigger := t }
  | .clock t => { p with clock := t }
  | .pixel .. => p

/-- The place of a pixel of a chip on the detector. -/
def onDetector (chip : Int) (col row : Nat) : Int × Int :=
  if chip = 0 then (260 + col, row)
  else if chip = 1 then (515 - col, 515 - row)
  else if chip = 2 then (255 - col, 515 - row)
  else (col, row)

/-- The hit that a firing pixel is: its true time and the true time since the last trigger. -/
def trueHit (chip : Int) (trigger t col row tot ftoa : Nat) : Hit :=
  { x := (onDetector chip col row).1, y := (onDetector chip col row).2, tot := tot, toa := (t % 2 ^ 14 : Nat), ftoa := ftoa,
    tof := some (BitVec.ofNat 32 (t - trigger)), spidertime := BitVec.ofNat 64 t }

/-- The hit of a signal: that of a firing pixel after the first trigger, and after the first clock if `needClock`. -/
def Signal.hit (needClock : Bool) (chip : Int) (p : Past) : Signal → List Hit
  | .pixel t col row tot ftoa =>
    if p.trigger ≠ 0 ∧ (needClock = true → p.clock ≠ 0) then [trueHit chip p.trigger t col row tot ftoa] else []
  | .trigger _ => []
  | .clock _ => []

/-- The true hits. -/
def trueHits (needClock : Bool) (chip : Int) : Past → List Signal → List Hit
  | _, [] => []
  | p, s :: ss => s.hit needClock chip p ++ trueHits needClock chip (p.after s) ss

/-- The pixel exists and its counters do not overflow. -/
def PixelOk (col row tot ftoa : Nat) : Prop := col < 256 ∧ row < 256 ∧ tot < 2 ^ 10 ∧ ftoa < 2 ^ 4

/-- Conditions under which the global clock tells the true times: a trigger comes less than 2^32 ticks (107 s) after the last clock, a
pixel fires less than 1 s after the last clock and less than 25.8 s before it, and within 16.67 ms of the last trigger. -/
def Signal.TimelyG (p : Past) : Signal → Prop
  | .trigger t => 0 < t ∧ p.clock ≤ t ∧ t < p.clock + 2 ^ 32 ∧ t < 2 ^ 48
  | .clock t => 0 < t ∧ t < 2 ^ 48 - 2 ^ 30
  | .pixel t col row tot ftoa => PixelOk col row tot ftoa ∧ (p.trigger ≠ 0 → p.clock ≠ 0 →
      p.trigger ≤ t ∧ t ≤ p.trigger + 666800 ∧ p.clock + 40000000 ≤ t + 2 ^ 30 ∧ t < p.clock + 40000000)

/-- Conditions under which the triggers alone tell the true times: nothing happens later than 2^31 ticks (53.7 s) after the start, and a
pixel fires after the last trigger, by less than 2^30 - 2^22 ticks (26.7 s). -/
def Signal.TimelyT (p : Past) : Signal → Prop
  | .trigger t => 0 < t ∧ t < 2 ^ 31
  | .clock _ => True
  | .pixel t col row tot ftoa => PixelOk col row tot ftoa ∧ (p.trigger ≠ 0 →
      p.trigger ≤ t ∧ t < p.trigger + (2 ^ 30 - 2 ^ 22) ∧ t < 2 ^ 31)

def AllTimelyG : Past → List Signal → Prop
  | _, [] => True
  | p, s :: ss => s.TimelyG p ∧ AllTimelyG (p.after s) ss

def AllTimelyT : Past → List Signal → Prop
  | _, [] => True
  | p, s :: ss => s.TimelyT p ∧ AllTimelyT (p.after s) ss

/-! ## Files of a detector of four chips -/

/-- What one chip sends at a time. -/
structure Readout where
  chip : Nat
  signals : List Signal

def Readout.packets (r : Readout) : List U64 := r.signals.flatMap Signal.packets

/-- `TPX3`, the chip, a byte 0, the number of bytes that follow. -/
def Readout.header (r : Readout) : U64 := BitVec.ofNat 64 (0x33585054 + r.chip * 2 ^ 32 + 8 * r.packets.length * 2 ^ 48)

def Readout.chunk (r : Readout) : Chunk := ⟨r.header, r.packets⟩

/-- The file of a detector. -/
def detectorFile (rs : List Readout) : Bytes := streamBytes (rs.map Readout.chunk)

/-- A pixel whose packet starts with the bytes `TPX`. -/
def Signal.Disguised : Signal → Prop
  | .pixel t _ _ tot ftoa => t / 2 ^ 14 % 2 ^ 16 = 0x5054 ∧ tot % 16 = 5 ∧ ftoa = 8
  | .trigger _ => False
  | .clock _ => False

instance : DecidablePred Signal.Disguised := fun s => by cases s <;> unfold Signal.Disguised <;> infer_instance

/-- One of the chips 0 to 3, at most 8191 packets, none of them disguised as a header. -/
structure Readout.Ok (r : Readout) : Prop where
  chip : r.chip < 4
  length : r.packets.length < 2 ^ 13
  plain : ∀ s ∈ r.signals, ¬ s.Disguised

/-- The true hits of every readout. -/
def trueReadouts (needClock : Bool) : Past → List Readout → List (List Hit)
  | _, [] => []
  | p, r :: rs => trueHits needClock r.chip p r.signals :: trueReadouts needClock (r.signals.foldl Past.after p) rs

/-- Every pixel comes after a clock and a later trigger. -/
def Dated (sigs : List Signal) : Prop :=
  ∀ a t col row tot ftoa b, sigs = a ++ .pixel t col row tot ftoa :: b →
    ∃ a₁ g a₂ T a₃, a = a₁ ++ .clock g :: (a₂ ++ .trigger T :: a₃)

/-- The first readout starts with a clock and a trigger. -/
def StartsDated (rs : List Readout) : Prop :=
  ∃ chip g T rest rs', rs = ⟨chip, .clock g :: .trigger T :: rest⟩ :: rs'

/-! ## What the older readers can recover -/

/-- Conditions under which a clock that is always extended forward tells the true times: a trigger comes less than 2^32 ticks (107 s)
after the last clock, a pixel fires after the last clock by less than 2^30 ticks (26.8 s), and after the last trigger by less than 2^32
ticks.  Before the first clock or trigger these count from the start of the detector. -/
def Signal.TimelyL (p : Past) : Signal → Prop
  | .trigger t => p.clock ≤ t ∧ t < p.clock + 2 ^ 32 ∧ t < 2 ^ 48
  | .clock t => t < 2 ^ 48
  | .pixel t col row tot ftoa => PixelOk col row tot ftoa ∧ p.trigger ≤ t ∧ t < p.trigger + 2 ^ 32 ∧ p.clock ≤ t ∧
      t < p.clock + 2 ^ 30 ∧ t < 2 ^ 48

def AllTimelyL : Past → List Signal → Prop
  | _, [] => True
  | p, s :: ss => s.TimelyL p ∧ AllTimelyL (p.after s) ss

/-- The hits of all firing pixels, also of those before the first trigger. -/
def everyHit (chip : Int) : Past → List Signal → List Hit
  | _, [] => []
  | p, .pixel t col row tot ftoa :: ss => trueHit chip p.trigger t col row tot ftoa :: everyHit chip p ss
  | p, s :: ss => everyHit chip (p.after s) ss

/-- The hits of all firing pixels of a file. -/
def everyReadout : Past → List Readout → List Hit
  | _, [] => []
  | p, r :: rs => everyHit r.chip p r.signals ++ everyReadout (r.signals.foldl Past.after p) rs

/-- One of the chips 0 to 3, and at most 8191 packets. -/
structure Readout.Fits (r : Readout) : Prop where
  chip : r.chip < 4
  length : r.packets.length < 2 ^ 13

/-- The true times of the firing pixels, in the order of the file. -/
def pixelTimes (sigs : List Signal) : List Nat := sigs.flatMap fun
  | .pixel t .. => [t]
  | .trigger _ => []
  | .clock _ => []

/-- The clocks that a chip sends from byte `off` on: chip, time, place of the second packet. -/
def clocksOf (chip : Int) : Nat → List Signal → List (Int × Nat × Nat)
  | _, [] => []
  | off, .clock t :: ss => (chip, t, off + 8) :: clocksOf chip (off + 16) ss
  | off, .trigger _ :: ss => clocksOf chip (off + 8) ss
  | off, .pixel .. :: ss => clocksOf chip (off + 8) ss

/-- The clocks of a file that starts at byte `off`. -/
def fileClocks : Nat → List Readout → List (Int × Nat × Nat)
  | _, [] => []
  | off, r :: rs => clocksOf r.chip (off + 8) r.signals ++ fileClocks (off + 8 + 8 * r.packets.length) rs

end Verif.Spec
