import Verif.Model.LegacyAbs

/-!
# The clustering benchmarks (FastSophiread/benchmarks/benchmark_hits2events.cpp, SophireadLib/benchmarks/benchmark_abs.cpp,
SophireadLib/benchmarks/benchmark_abs_thread.cpp)

The three programs generate the hits in the same way and cluster them with `ABS(5.0, 1, 75)`.  They differ in the number of
generated clusters (12000000, 12000, 12000000), in the library (fast, legacy, legacy) and in the number of threads (1, 1, 64).
Random numbers are input.  Time measurements and messages are left out.
-/

namespace Verif

/-- The random numbers for one hit: `tot(gen)`, `toa(gen)`, `ftoa(gen)`, `tof(gen)` (benchmark_hits2events.cpp:46). -/
structure HitDraw where
  tot : F64
  toa : F64
  ftoa : F64
  tof : F64
  deriving DecidableEq, Repr

/-- The random numbers for one cluster (benchmark_hits2events.cpp:41-47): two of `pos(gen)`, one of `spidertime(gen)`, and
those of the hits, of which there are `num_hits_per_cluster`, i.e. ten. -/
structure ClusterDraw where
  x : F64
  y : F64
  time : F64
  hits : List HitDraw
  deriving DecidableEq, Repr

/-- Conversion `double → unsigned int`; `none` is undefined behaviour (value not representable). -/
def toU32? : F64 → Option Nat
  | .fin q => if -1 < q ∧ q < 4294967296 then some (F64.truncQ q).toNat else none
  | _ => none

/-- `int v = 10 * i + draw` (benchmark_hits2events.cpp:41-43). -/
def fakeInt (i : Nat) (draw : F64) : Res Int :=
  if 10 * i < 2 ^ 31 then
    match (F64.add (F64.ofInt (10 * i : Nat)) draw).toI32? with
    | some v => .ok v
    | none => .ub .floatToInt
  else .ub .signedOverflow

/-- `Hit(x, y, tot(gen), toa(gen), ftoa(gen), tof(gen), stime)` (benchmark_hits2events.cpp:46): `stime`, an `int`, becomes an
`unsigned long long`. -/
def fakeHit (x y stime : Int) (d : HitDraw) : Res Hit :=
  match d.tot.toI32?, d.toa.toI32?, d.ftoa.toI32?, toU32? d.tof with
  | some tot, some toa, some ftoa, some tof => .ok ⟨x, y, tot, toa, ftoa, some (BitVec.ofNat 32 tof), BitVec.ofInt 64 stime⟩
  | _, _, _, _ => .ub .floatToInt

/-- The loop over the hits of a cluster (benchmark_hits2events.cpp:45-47). -/
def fakeMembers (x y stime : Int) : List HitDraw → Res (List Hit)
  | [] => .ok []
  | d :: ds => do
    let h ← fakeHit x y stime d
    let hs ← fakeMembers x y stime ds
    .ok (h :: hs)

/-- One iteration of the loop over the clusters (benchmark_hits2events.cpp:39-48). -/
def fakeCluster (i : Nat) (c : ClusterDraw) : Res (List Hit) := do
  let x ← fakeInt i c.x
  let y ← fakeInt i c.y
  let stime ← fakeInt i c.time
  fakeMembers x y stime c.hits

/-- The loop over the clusters from number `i` on, one for each element of the list (benchmark_hits2events.cpp:38-49,
benchmark_abs.cpp:36-51, benchmark_abs_thread.cpp:36-54). -/
def fakeFrom : Nat → List ClusterDraw → Res (List Hit)
  | _, [] => .ok []
  | i, c :: cs => do
    let hs ← fakeCluster i c
    let rest ← fakeFrom (i + 1) cs
    .ok (hs ++ rest)

/-- `fake_hits` for as many clusters as there are elements. -/
def fakeHits (cs : List ClusterDraw) : Res (List Hit) := fakeFrom 0 cs

/-- `ABS(5.0, 1, 75)` (benchmark_hits2events.cpp:62, benchmark_abs.cpp:56, benchmark_abs_thread.cpp:62). -/
def benchAbs : AbsObj := AbsObj.new ⟨F64.ofRat 5, 1, 75⟩

/-- `fit` and `get_events` of the fast library (benchmark_hits2events.cpp:62-64). -/
def hits2events (solve : List GaussRow → F64 × F64) (hits : List Hit) : Res (List Neutron) := do
  let o ← benchAbs.fit hits
  o.getEvents solve hits

/-- `run_single_test` (benchmark_abs.cpp:53-83), with a new object each time. -/
def runSingleTest (solve : List GaussRow → F64 × F64) (hits : List Hit) : Res (List Neutron) := do
  let o ← benchAbs.legacyFit hits
  (o.setMethod "centroid").legacyEvents solve hits

/-- `thread_data::run` (benchmark_abs_thread.cpp:61-68). -/
def threadTask (solve : List GaussRow → F64 × F64) (hits : List Hit) : Res (List Neutron) := do
  let o ← benchAbs.legacyFit hits
  o.legacyEvents solve hits

/-- The hits of thread `i` of `k` (benchmark_abs_thread.cpp:75-87), for `k > 0`. -/
def threadPiece (hits : List Hit) (k i : Nat) : List Hit :=
  let chunk := hits.length / k
  if i = k - 1 then hits.drop (i * chunk) else (hits.drop (i * chunk)).take chunk

/-- The results of all threads of `single_test` (benchmark_abs_thread.cpp:71-95).  The threads share nothing but the vector of
hits, which is constant, so the interleaving does not matter. -/
def singleTest (solve : List GaussRow → F64 × F64) (hits : List Hit) (k : Nat) : List (Res (List Neutron)) :=
  (List.range k).map fun i => threadTask solve (threadPiece hits k i)

end Verif
