import Verif.Model.Hit

/-!
# Peak fitting (FastSophiread/src/centroid.cpp, src/fastgaussian.cpp, include/neutron.h)
-/

namespace Verif

/-- `class Neutron` (neutron.h:18-51).  `nHits` is an `int` in the code; here a natural number, since the
constructors below receive a vector size (assumed below 2^31). -/
structure Neutron where
  x : F64
  y : F64
  tof : F64
  tot : F64
  nHits : Nat
  deriving DecidableEq, Repr

namespace Neutron
/-- `getTOF_ns` (neutron.h:28). -/
def tofNs (n : Neutron) : F64 := F64.mul n.tof (F64.ofRat 25)
/-- `getTOT_ns` (neutron.h:29). -/
def totNs (n : Neutron) : F64 := F64.mul n.tot (F64.ofRat 25)
end Neutron

/-- Accumulators `x, y, tof, tot` of `Centroid::fit` (centroid.cpp:21-24). -/
structure CentroidAcc where
  x : F64
  y : F64
  tof : F64
  tot : F64

/-- One iteration of either loop of `Centroid::fit` (centroid.cpp:31-41 if `weighted`, else 46-51).  Reading a
time of flight that was never written is undefined behaviour. -/
def centroidStep (weighted : Bool) (sr : F64) (a : CentroidAcc) (h : Hit) : Res CentroidAcc :=
  match h.tof with
  | none => .ub .indeterminate
  | some tof =>
    let tx := F64.mul sr (F64.ofInt h.x)
    let ty := F64.mul sr (F64.ofInt h.y)
    let wx := if weighted then F64.mul tx (F64.ofInt h.tot) else tx
    let wy := if weighted then F64.mul ty (F64.ofInt h.tot) else ty
    .ok { x := F64.add a.x wx, y := F64.add a.y wy, tof := F64.add a.tof (F64.ofInt tof.toNat),
          tot := F64.add a.tot (F64.ofInt h.tot) }

/-- The loop over the hits. -/
def centroidLoop (weighted : Bool) (sr : F64) : CentroidAcc → List Hit → Res CentroidAcc
  | a, [] => .ok a
  | a, h :: hs => do
    let a' ← centroidStep weighted sr a h
    centroidLoop weighted sr a' hs

/-- `Centroid::fit` (centroid.cpp:20-60). -/
def centroidFit (weighted : Bool) (sr : F64) (data : List Hit) : Res Neutron :=
  if data.length = 0 then .ok ⟨F64.ofRat 0, F64.ofRat 0, F64.ofRat 0, F64.ofRat 0, 0⟩
  else do
    let a ← centroidLoop weighted sr ⟨F64.ofRat 0, F64.ofRat 0, F64.ofRat 0, F64.ofRat 0⟩ data
    let inv := if weighted then F64.div (F64.ofRat 1) a.tot
      else F64.div (F64.ofRat 1) (F64.ofInt data.length)
    .ok ⟨F64.mul a.x inv, F64.mul a.y inv, F64.div a.tof (F64.ofInt data.length), a.tot, data.length⟩

/-- `getMedian` (fastgaussian.cpp:27-37) for a non-empty vector.  `std::sort` on doubles without NaN is a merge
sort here (equal doubles are indistinguishable).  On an empty vector the code reads out of bounds. -/
def getMedian (data : List F64) : Res F64 :=
  let sorted := data.mergeSort (fun a b => F64.le a b)
  if sorted.length % 2 = 0 then
    match sorted[sorted.length / 2 - 1]?, sorted[sorted.length / 2]? with
    | some a, some b => .ok (F64.div (F64.add a b) (F64.ofRat 2))
    | _, _ => .ub .oobRead
  else
    match sorted[sorted.length / 2]? with
    | some a => .ok a
    | none => .ub .oobRead

/-- A row handed to the least-squares solver: x, y, ToT above the median, time of flight. -/
structure GaussRow where
  x : F64
  y : F64
  tot : F64
  tof : F64
  deriving DecidableEq, Repr

/-- The vectors extracted from the hits (fastgaussian.cpp:55-69). -/
def gaussRow (sr : F64) (h : Hit) : Res GaussRow :=
  match h.tof with
  | none => .ub .indeterminate
  | some tof => .ok ⟨F64.mul sr (F64.ofInt h.x), F64.mul sr (F64.ofInt h.y), F64.ofInt h.tot, F64.ofInt tof.toNat⟩

def gaussRows (sr : F64) : List Hit → Res (List GaussRow)
  | [] => .ok []
  | h :: hs => do
    let r ← gaussRow sr h
    let rs ← gaussRows sr hs
    .ok (r :: rs)

/-- Rows kept after subtracting the median: those with positive rest (fastgaussian.cpp:72-91). -/
def gaussKeep (median : F64) (rows : List GaussRow) : List GaussRow :=
  (rows.map fun r => { r with tot := F64.sub r.tot median }).filter fun r => F64.lt (F64.ofRat 0) r.tot

/-- `FastGaussian::fit` (fastgaussian.cpp:45-126).  Building the matrix (which uses `std::log`) and the Eigen QR
solve (fastgaussian.cpp:93-110) are the parameter `solve`, which returns `x_sol(0)` and `x_sol(1)`. -/
def fastGaussianFit (solve : List GaussRow → F64 × F64) (sr : F64) (data : List Hit) : Res Neutron :=
  if data.length < 8 then .ok ⟨F64.ofRat (-1), F64.ofRat (-1), F64.ofRat 0, F64.ofRat 0, 0⟩
  else do
    let rows ← gaussRows sr data
    let median ← getMedian (rows.map GaussRow.tot)
    let kept := gaussKeep median rows
    let sol := solve kept
    let tof := F64.div ((kept.map GaussRow.tof).foldl F64.add (F64.ofRat 0)) (F64.ofInt kept.length)
    let tot := (kept.map GaussRow.tot).foldl F64.add (F64.ofRat 0)
    .ok ⟨F64.div sol.1 (F64.ofRat 2), F64.div sol.2 (F64.ofRat 2), tof, tot, data.length⟩

end Verif
