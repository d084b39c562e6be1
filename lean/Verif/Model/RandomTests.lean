import Verif.Model.FakeHits
import Verif.Model.Dbscan

/-!
# The unit tests of the clustering with random hits (FastSophiread/tests/test_abs.cpp, SophireadLib/tests/test_clustering.cpp)

Random numbers are input.  A test returns whether all its expectations hold; `EXPECT_…` does not end a test.  Messages are left
out.
-/

namespace Verif

/-- The random numbers for one hit (test_abs.cpp:67-70): two of `pos(gen)`, one of `spidertime(gen)`, and the rest. -/
structure TestDraw where
  x : F64
  y : F64
  time : F64
  hit : HitDraw
  deriving DecidableEq, Repr

/-- `int v = centre + draw` (test_abs.cpp:67-69, test_clustering.cpp:24-26). -/
def aroundInt (centre : Int) (draw : F64) : Res Int :=
  match (F64.add (F64.ofInt centre) draw).toI32? with
  | some v => .ok v
  | none => .ub .floatToInt

/-- One iteration of the loop over the hits around `(centre, centre)` (test_abs.cpp:67-70, test_clustering.cpp:24-27). -/
def testHit (centre time : Int) (d : TestDraw) : Res Hit := do
  let x ← aroundInt centre d.x
  let y ← aroundInt centre d.y
  let stime ← aroundInt time d.time
  fakeHit x y stime d.hit

/-- The loop over the hits of a cluster (test_abs.cpp:66-71, test_clustering.cpp:23-28). -/
def testCluster (centre time : Int) : List TestDraw → Res (List Hit)
  | [] => .ok []
  | d :: ds => do
    let h ← testHit centre time d
    let hs ← testCluster centre time ds
    .ok (h :: hs)

/-- `SetUp` (test_abs.cpp:49-86) and `gen_clusters` (test_clustering.cpp:19-44) for the three lists of random numbers. -/
def testHits (a b c : List TestDraw) : Res (List Hit) := do
  let x ← testCluster 50 10 a
  let y ← testCluster 100 15 b
  let z ← testCluster 150 20 c
  .ok (x ++ y ++ z)

/-- `EXPECT_NEAR(v, ref, tolerance)` of gtest: `fabs(v - ref) <= tolerance`. -/
def expectNear (v : F64) (ref tolerance : ℚ) : Bool := F64.le (F64.abs (F64.sub v (F64.ofRat ref))) (F64.ofRat tolerance)

/-- `ABSTest.FitNeutronEvents` (test_abs.cpp:109-134). -/
def fastAbsTest (solve : List GaussRow → F64 × F64) (hits : List Hit) : Res Bool := do
  let o ← benchAbs.fit hits
  let events ← (o.setMethod "centroid").getEvents solve hits
  match events[0]?, events[1]?, events[2]? with
  | some a, some b, some c => .ok (decide (events.length = 3) &&
      expectNear a.x 50 (1 / 2) && expectNear a.y 50 (1 / 2) && expectNear b.x 100 (1 / 2) && expectNear b.y 100 (1 / 2) &&
      expectNear c.x 150 (1 / 2) && expectNear c.y 150 (1 / 2))
  | _, _, _ => .ub .oobRead

/-- `std::sort` of three doubles.  (Undefined for NaN; the events have none, see `c114_legacy_partial`.) -/
def sort3 (a b c : F64) : F64 × F64 × F64 :=
  if F64.lt b a then
    if F64.lt c b then (c, b, a) else if F64.lt c a then (b, c, a) else (b, a, c)
  else if F64.lt c a then (c, a, b) else if F64.lt c b then (a, c, b) else (a, b, c)

/-- The expectations about the coordinates (test_clustering.cpp:66-79, 101-114); `DSCALE` is 1. -/
def sortedNear (a b c : F64) : Bool :=
  match sort3 a b c with
  | (p, q, r) => expectNear p 50 2 && expectNear q 100 2 && expectNear r 150 2

/-- `Clustering.ABSAlgorithm` (test_clustering.cpp:46-86). -/
def legacyAbsTest (solve : List GaussRow → F64 × F64) (hits : List Hit) : Res Bool := do
  let o ← benchAbs.legacyFit hits
  let events ← (o.setMethod "centroid").legacyEvents solve hits
  match events[0]?, events[1]?, events[2]? with
  | some a, some b, some c => .ok (decide (events.length = 3) && sortedNear a.x b.x c.x && sortedNear a.y b.y c.y)
  | _, _, _ => .ub .oobRead

/-- `Clustering.DBSCANAlgorithm` (test_clustering.cpp:88-121) for an object made with `DBSCAN(8000., 30, 4., 10)`. -/
def dbscanTest (c : DbCtx) (hits : List Hit) : Res Bool := do
  let r ← dbGetEvents c DbState.init hits
  match r.1[0]?, r.1[1]?, r.1[2]? with
  | some x, some y, some z => .ok (decide (r.1.length = 3) && sortedNear x.x y.x z.x && sortedNear x.y y.y z.y)
  | _, _, _ => .ub .oobRead

end Verif
