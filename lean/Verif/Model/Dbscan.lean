import Mathlib.Data.List.Dedup
import Verif.Model.Legacy

/-!
# DBSCAN clustering of the library (SophireadLib/src/dbscan.cpp, include/dbscan.h)

`mlpack::DBSCAN::Cluster` and `std::sort` are functions handed to the model (`DbCtx`), so a theorem that assumes something
about them says so.  Diagnostic output and the two `assert`s (no-ops in the release build) are left out.
-/

namespace Verif

/-- `SIZE_MAX`, mlpack's label for noise. -/
def sizeMax : Nat := 2 ^ 64 - 1

/-- `DBL_MAX`. -/
def dblMax : F64 := .fin ((2 - 2 ^ (-52 : ℤ)) * 2 ^ (1023 : ℤ))

/-- `DBL_MIN`, the least positive normal number. -/
def dblMin : F64 := .fin (2 ^ (-1022 : ℤ))

/-- `std::min(a, b)` on doubles. -/
def stdMin (a b : F64) : F64 := if F64.lt b a then b else a

/-- `std::max(a, b)` on doubles. -/
def stdMax (a b : F64) : F64 := if F64.lt a b then b else a

/-- `DBSCAN::TimeClusterInfo` (dbscan.h:24-36). -/
structure TimeInfo where
  mean : F64
  sum : F64
  tmin : F64
  tmax : F64
  idx : List Nat
  deriving DecidableEq, Repr

/-- `TimeClusterInfo()` (dbscan.cpp:6-12). -/
def TimeInfo.empty : TimeInfo := ⟨.fin 0, .fin 0, dblMax, dblMin, []⟩

/-- `TimeClusterInfo(time, xy_index)` (dbscan.cpp:14-18). -/
def TimeInfo.single (t : F64) (i : Nat) : TimeInfo := ⟨t, t, t, t, [i]⟩

/-- A clustered point joins its info (dbscan.cpp:93-97). -/
def TimeInfo.addPoint (t : F64) (i : Nat) (c : TimeInfo) : TimeInfo :=
  { c with idx := c.idx ++ [i], sum := F64.add c.sum t, tmin := stdMin c.tmin t, tmax := stdMax c.tmax t }

/-- What `dbs.Cluster` returns (dbscan.cpp:248-260, 287-299). -/
structure Labelling (α : Type) where
  k : Nat
  labels : List Nat
  centroids : List α

/-- `NeutronEvent` (tpx3.h:104-125). -/
structure NEvent where
  x : F64
  y : F64
  tof : F64
  tot : F64
  nHits : Int
  deriving DecidableEq, Repr

/-- Parameters of the object (dbscan.h:6-11) and the library functions it calls. -/
structure DbCtx where
  epsTime : F64
  minTime : Nat
  fit1D : List F64 → Labelling F64
  fit2D : List (F64 × F64) → Labelling (F64 × F64)
  sort : List TimeInfo → List TimeInfo

/-- `label == SIZE_MAX || label > number_of_clusters - 1`, unsigned (dbscan.cpp:88, 146, 156). -/
def isNoise (k l : Nat) : Bool := l == sizeMax || decide ((if k = 0 then sizeMax else k - 1) < l)

/-- The loop over the labels of a chunk and the appending of the noise points (dbscan.cpp:86-102). -/
def assignPoints (k : Nat) (chunk : List F64) (off : Nat) :
    List Nat → Nat → List TimeInfo → List TimeInfo → Res (List TimeInfo)
  | [], _, infos, rest => .ok (infos ++ rest)
  | l :: ls, ii, infos, rest => match chunk[ii]? with
    | none => .ub .oobRead
    | some t =>
      if isNoise k l then assignPoints k chunk off ls (ii + 1) infos (rest ++ [TimeInfo.single t (ii + off)])
      else if l < infos.length then
        assignPoints k chunk off ls (ii + 1) (infos.modify l (TimeInfo.addPoint t (ii + off))) rest
      else .ub .oobWrite

/-- One chunk (dbscan.cpp:70-102). -/
def chunkInfos (c : DbCtx) (chunk : List F64) (off : Nat) : Res (List TimeInfo) :=
  let L := c.fit1D chunk
  if L.centroids.length < L.k then .ub .oobRead
  else assignPoints L.k chunk off L.labels 0
    ((L.centroids.take L.k).map fun m => { TimeInfo.empty with mean := m }) []

/-- The loop over the chunks (dbscan.cpp:59-112).  `size` is `m_max_hit_chunk_size`, `times` the arrival times not yet
handed out; `fuel` is never used up for a positive size (`fitChunks_fuel`). -/
def fitChunks (c : DbCtx) (size : Nat) : Nat → Nat → List F64 → List TimeInfo → Res (List TimeInfo)
  | 0, _, _, all => .ok all
  | fuel + 1, off, times, all =>
    (chunkInfos c (times.take size) off).bind fun infos =>
      if times.drop size = [] then .ok (all ++ infos)
      else fitChunks c size fuel (off + size) (times.drop size) (all ++ infos)

/-- Merging condition (dbscan.cpp:201-203). -/
def TimeInfo.near (eps : F64) (cur next : TimeInfo) : Bool :=
  F64.lt next.tmin cur.tmax || F64.le (F64.sub next.tmin cur.tmax) eps

/-- Merging two clusters (dbscan.cpp:204-210). -/
def TimeInfo.join (cur next : TimeInfo) : TimeInfo :=
  { cur with tmax := stdMax cur.tmax next.tmax, tmin := stdMin cur.tmin next.tmin, idx := cur.idx ++ next.idx,
             sum := F64.add cur.sum next.sum }

/-- A cluster is complete (dbscan.cpp:212-216, 221-225). -/
def TimeInfo.flush (minPts : Nat) (cur : TimeInfo) : List TimeInfo :=
  if minPts ≤ cur.idx.length then [{ cur with mean := F64.div cur.sum (F64.ofInt cur.idx.length) }] else []

/-- The loop (dbscan.cpp:199-225). -/
def mergeGo (eps : F64) (minPts : Nat) : TimeInfo → List TimeInfo → List TimeInfo
  | cur, [] => cur.flush minPts
  | cur, next :: rest =>
    if cur.near eps next then mergeGo eps minPts (cur.join next) rest
    else cur.flush minPts ++ mergeGo eps minPts next rest

/-- `mergeTimeClusters1D` (dbscan.cpp:183-226): the first element is read without a check. -/
def mergeTimeClusters1D (c : DbCtx) (infos : List TimeInfo) : Res (List TimeInfo) :=
  match c.sort infos with
  | [] => .ub .oobRead
  | first :: rest => .ok (mergeGo c.epsTime c.minTime first rest)

/-- `m_max_hit_chunk_size` (dbscan.h:55). -/
def maxHitChunkSize : Nat := 2000000

/-- First half of `fit`: the time clusters (dbscan.cpp:53-118).  `getTOA_ns` (tpx3.h:74) is the same as in `hit.h`. -/
def timeClusters (c : DbCtx) (size : Nat) (hits : List Hit) : Res (List TimeInfo) :=
  (fitChunks c size (hits.length + 1) 0 (hits.map Hit.toaNs) []).bind fun all =>
    if all = [] then .ok [] else mergeTimeClusters1D c all

/-- `xy_points` (dbscan.cpp:136-139). -/
def xyPoints (hits : List Hit) : List Nat → Res (List (F64 × F64))
  | [] => .ok []
  | i :: is => match hits[i]? with
    | none => .ub .oobRead
    | some h => (xyPoints hits is).bind fun ps => .ok ((F64.ofInt h.x, F64.ofInt h.y) :: ps)

/-- Conversion `size_t → int`, modulo 2^32. -/
def toInt32 (n : Nat) : Int := (BitVec.ofNat 32 n).toInt

/-- Setting `clusterLabels_` (dbscan.cpp:147-153).  The conditional has type `size_t`, so `-1` becomes `SIZE_MAX`
before it becomes an `int` again. -/
def setLabels (k off : Nat) (idx : List Nat) : List Nat → Nat → List Int → Res (List Int)
  | [], _, out => .ok out
  | l :: ls, ii, out => match idx[ii]? with
    | none => .ub .oobRead
    | some j =>
      if j < out.length then
        setLabels k off idx ls (ii + 1) (out.set j (toInt32 (if isNoise k l then sizeMax else l + off)))
      else .ub .oobWrite

/-- Keys of `label_counts` in the order of the map (dbscan.cpp:156-163). -/
def countedLabels (k : Nat) (labels : List Nat) : List Nat :=
  ((labels.filter fun l => !isNoise k l).dedup).mergeSort (· ≤ ·)

/-- Appending the events of a time cluster (dbscan.cpp:168-173). -/
def xyEvents (mean : F64) (L : Labelling (F64 × F64)) : List Nat → Res (List NEvent)
  | [] => .ok []
  | l :: ls => match L.centroids[l]? with
    | none => .ub .oobRead
    | some p => (xyEvents mean L ls).bind fun es =>
      .ok (⟨F64.mul p.1 (.fin 1), F64.mul p.2 (.fin 1), mean, .fin 0, toInt32 (L.labels.count l)⟩ :: es)

/-- The loop over the time clusters (dbscan.cpp:131-174). -/
def fitXY (c : DbCtx) (hits : List Hit) : List TimeInfo → Nat → List Int → List NEvent → Res (List Int × List NEvent)
  | [], _, labels, events => .ok (labels, events)
  | info :: infos, off, labels, events =>
    (xyPoints hits info.idx).bind fun ps =>
      let L := c.fit2D ps
      (setLabels L.k off info.idx L.labels 0 labels).bind fun labels' =>
        (xyEvents info.mean L (countedLabels L.k L.labels)).bind fun es =>
          fitXY c hits infos (off + L.k) labels' (events ++ es)

/-- Members of the object that `fit` changes (dbscan.h:54, 56). -/
structure DbState where
  labels : List Int
  events : List NEvent
  deriving DecidableEq, Repr

/-- A new object. -/
def DbState.init : DbState := ⟨[], []⟩

/-- `reset` (dbscan.cpp:325). -/
def DbState.reset (s : DbState) : DbState := { s with events := [] }

/-- `clusterLabels_.resize(n, -1)`. -/
def resizeLabels (n : Nat) (l : List Int) : List Int := l.take n ++ List.replicate (n - l.length) (-1)

/-- `fit` (dbscan.cpp:30-175) with a chunk size. -/
def dbFitWith (c : DbCtx) (size : Nat) (s : DbState) (hits : List Hit) : Res DbState :=
  let labels := resizeLabels hits.length s.labels
  if hits = [] then .ok ⟨labels, []⟩
  else (timeClusters c size hits).bind fun infos =>
    (fitXY c hits infos 0 labels []).bind fun r => .ok ⟨r.1, r.2⟩

/-- `fit`. -/
def dbFit (c : DbCtx) (s : DbState) (hits : List Hit) : Res DbState := dbFitWith c maxHitChunkSize s hits

/-- `get_events` (dbscan.cpp:313-320). -/
def dbGetEvents (c : DbCtx) (s : DbState) (hits : List Hit) : Res (List NEvent × DbState) :=
  if s.events.length = 0 then (dbFit c s hits).bind fun s' => .ok (s'.events, s') else .ok (s.events, s)

end Verif
