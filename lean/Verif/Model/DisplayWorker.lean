import Mathlib.Logic.Function.Basic
import Verif.Model.DisplayParse

/-!
# Clustering in the display program (`Hit_worker::runme`, sophiread_display/hit_worker.cpp:43-208)

What the consumer of the ring (`Model/Display.lean`) does with the hits, one after the other.
-/

namespace Verif

/-- `struct cluster` (mainwindow.h:18-32) without the members that nothing reads (`tof`, `firstkk`, `lastkk`). -/
structure ShownCluster where
  inUse : Bool
  firstspdr : Int
  minx : Int
  maxx : Int
  miny : Int
  maxy : Int
  totalTOT : Int
  runningX : Int
  runningY : Int
  totalpix : Int
  deriving DecidableEq, Repr

/-- Result of `int` arithmetic. -/
def asInt (n : Int) : Res Int := if -2 ^ 31 ≤ n ∧ n < 2 ^ 31 then .ok n else .ub .signedOverflow

namespace ShownCluster

/-- `memset` to zero (hit_worker.cpp:57). -/
def zero : ShownCluster := ⟨false, 0, 0, 0, 0, 0, 0, 0, 0, 0⟩

/-- The tests for a hit (hit_worker.cpp:81-98).  Coordinates and times are small, so the sums do not overflow. -/
def takes (c : ShownCluster) (h : DisplayHit) : Bool :=
  c.inUse && decide (|c.firstspdr - h.spdr| < 3) && decide (h.x ≤ c.maxx + 5) && decide (c.minx - 5 ≤ h.x) &&
    decide (h.y ≤ c.maxy + 5) && decide (c.miny - 5 ≤ h.y)

/-- The update (hit_worker.cpp:102-123). -/
def add (c : ShownCluster) (h : DisplayHit) : Res ShownCluster := do
  let pix ← asInt (c.totalpix + 1)
  let px ← asInt (h.tot * h.x)
  let rx ← asInt (c.runningX + px)
  let py ← asInt (h.tot * h.y)
  let ry ← asInt (c.runningY + py)
  let tot ← asInt (c.totalTOT + h.tot)
  return { c with
    totalpix := pix, runningX := rx, runningY := ry, totalTOT := tot
    minx := if h.x < c.minx then h.x else c.minx
    maxx := if h.x < c.minx then c.maxx else if c.maxx < h.x then h.x else c.maxx
    miny := if h.y < c.miny then h.y else c.miny
    maxy := if h.y < c.miny then c.maxy else if c.maxy < h.y then h.y else c.maxy }

/-- A new cluster (hit_worker.cpp:167-177, 185-195). -/
def single (h : DisplayHit) : Res ShownCluster := do
  let rx ← asInt (h.x * h.tot)
  let ry ← asInt (h.y * h.tot)
  return ⟨true, h.spdr, h.x, h.x, h.y, h.y, h.tot, rx, ry, 1⟩

/-- Place of a cluster in the picture (hit_worker.cpp:141-149): the weighted mean, eight places to a pixel, turned by the
angle with cosine `cos` and sine `sin`; nothing outside. -/
def place (cos sin : F64) (c : ShownCluster) : Res (List (Int × Int)) :=
  let xmean := F64.div (F64.mul (F64.ofInt 8) (F64.ofInt c.runningX)) (F64.ofInt c.totalTOT)
  let ymean := F64.div (F64.mul (F64.ofInt 8) (F64.ofInt c.runningY)) (F64.ofInt c.totalTOT)
  match (F64.sub (F64.mul xmean cos) (F64.mul ymean sin)).toI32?,
      (F64.add (F64.mul xmean sin) (F64.mul ymean cos)).toI32? with
  | some ix, some iy => .ok (if 0 ≤ ix ∧ ix < 4096 ∧ 0 ≤ iy ∧ iy < 4096 then [(ix, iy)] else [])
  | _, _ => .ub .floatToInt

end ShownCluster

/-- Variables of `runme`: `myclusters` (128 elements), `pindex`, `cindex`, `totalClusters`, `acceptedClusters`; `shown` are
the places at which `my2dhisto` was incremented, `popped` the clusters taken out so far (kept here only to speak about). -/
structure HitWorker where
  slots : Nat → ShownCluster
  pindex : Nat
  cindex : Nat
  total : Nat
  accepted : Nat
  shown : List (Int × Int)
  popped : List ShownCluster

namespace HitWorker

/-- State at the start of `runme` (hit_worker.cpp:48-57). -/
def init : HitWorker := ⟨fun _ => ShownCluster.zero, 0, 0, 0, 0, [], []⟩

/-- One hit (hit_worker.cpp:74-198); `cos`, `sin` are `mycos`, `mysin` (hit_worker.cpp:20-21). -/
def step (cos sin : F64) (s : HitWorker) (h : DisplayHit) : Res HitWorker :=
  match (List.range 128).find? fun i => (s.slots i).takes h with
  | some i => do
    let c ← (s.slots i).add h
    return { s with slots := Function.update s.slots i c }
  | none =>
    if (s.pindex + 1) % 128 = s.cindex then do
      let old := s.slots s.cindex
      let here ← (if 10 < old.totalpix then old.place cos sin else .ok [] : Res (List (Int × Int)))
      let c ← ShownCluster.single h
      return { slots := Function.update (Function.update s.slots s.cindex { old with inUse := false }) s.pindex c
               pindex := (s.pindex + 1) % 128, cindex := (s.cindex + 1) % 128
               total := s.total + 1, accepted := s.accepted + if 10 < old.totalpix then 1 else 0
               shown := s.shown ++ here, popped := s.popped ++ [old] }
    else do
      let c ← ShownCluster.single h
      return { s with slots := Function.update s.slots s.pindex c, pindex := (s.pindex + 1) % 128 }

/-- All hits, one after the other. -/
def run (cos sin : F64) (s : HitWorker) : List DisplayHit → Res HitWorker
  | [] => .ok s
  | h :: hs => (s.step cos sin h).bind fun s' => run cos sin s' hs

end HitWorker
end Verif
