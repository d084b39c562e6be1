import Verif.Model.Config
import Verif.Model.Gui
import Verif.Model.H5
import Verif.Model.StreamCli

/-!
# Parameters and output of the legacy library (SophireadLib/src/tpx3.cpp:636-801) and the end of the streaming program

A file is a list of named groups, a group a list of named columns.  Every call of the HDF5 library that changes a file can
fail; a failed `write` leaves the fill value 0.  That a failed opening has already emptied the file is left out, and so is a
failure to close it.
-/

namespace Verif

/-! ## Parameters -/

/-- `class Params` (SophireadLib/include/tpx3.h:130-153). -/
structure LegacyParams where
  radius : F64
  minClusterSize : U64
  spiderTimeRange : U64
  deriving DecidableEq

/-- Defaults (tpx3.cpp:774-776). -/
def LegacyParams.default : LegacyParams := ⟨F64.ofRat 5, 1#64, 75#64⟩

/-- `ss >> value` for an `unsigned long`: `none` when only white space is left, in which case `value` is not written; 0
without digits; the largest value on overflow; a minus sign negates modulo 2^64. -/
def extractU64 (l : List Char) : Option U64 :=
  match l.dropWhile isSpace with
  | [] => none
  | c :: cs =>
    let (neg, l) := takeSign (c :: cs)
    let n := digitsVal (l.takeWhile isDigit)
    some (if 2 ^ 64 ≤ n then BitVec.allOnes 64 else if neg then -BitVec.ofNat 64 n else BitVec.ofNat 64 n)

/-- One line (tpx3.cpp:782-791). -/
def legacyParamLine (p : LegacyParams) (line : List Char) : LegacyParams :=
  let (name, rest) := firstWord line
  if name = "abs_radius".toList then { p with radius := (extractDouble rest).getD p.radius }
  else if name = "abs_min_cluster_size".toList then { p with minClusterSize := (extractU64 rest).getD p.minClusterSize }
  else if name = "spider_time_range".toList then { p with spiderTimeRange := (extractU64 rest).getD p.spiderTimeRange }
  else p

/-- What successive calls of `std::getline` give (tpx3.cpp:781): the text between line ends; nothing after the last one. -/
def getLines : List Char → List (List Char)
  | [] => []
  | c :: cs =>
    if c = '\n' then [] :: getLines cs
    else match getLines cs with
      | [] => [[c]]
      | l :: ls => (c :: l) :: ls

/-- `parseUserDefinedParams` (tpx3.cpp:772-801); `none`: a file that cannot be opened, which is not reported. -/
def parseUserDefinedParams (file : Option (List Char)) : LegacyParams :=
  (getLines (file.getD [])).foldl legacyParamLine LegacyParams.default

/-! ## Output -/

/-- A dataset of `int` or of `double`. -/
inductive Column where
  | ints (l : List Int)
  | doubles (l : List F64)
  deriving DecidableEq

/-- The fill value in every row. -/
def Column.zeros : Column → Column
  | .ints l => .ints (l.map fun _ => 0)
  | .doubles l => .doubles (l.map fun _ => .fin 0)

abbrev PlainGroup := List (Name × Column)
abbrev PlainFile := List (Name × PlainGroup)

/-- A file on disk. -/
inductive DiskFile where
  | h5 (f : PlainFile)
  | other (content : Bytes)
  deriving DecidableEq

abbrev Disk := Path → Option DiskFile

/-- `createDataSet` and `write` for one column after the other (tpx3.cpp:655-702, 731-754).  `fault` is the number of the
library call that throws, `k` that of the next one. -/
def writeColumns (fault : Option Nat) : Nat → PlainGroup → PlainGroup → PlainGroup × Bool
  | _, [], g => (g, false)
  | k, (n, c) :: cs, g =>
    if fault = some k then (g, true)
    else if fault = some (k + 1) then (g ++ [(n, c.zeros)], true)
    else writeColumns fault (k + 2) cs (g ++ [(n, c)])

/-- Opening with `H5F_ACC_TRUNC` (call 0), `createGroup` (call 1) and the columns: the disk afterwards and the exception
that leaves the function. -/
def plainSave (fault : Option Nat) (path : Path) (group : Name) (cols : PlainGroup) (d : Disk) : Disk × Option String :=
  if fault = some 0 then (d, some "H5::FileIException")
  else if fault = some 1 then (Function.update d path (some (.h5 [])), some "H5::FileIException")
  else
    let r := writeColumns fault 2 cols []
    (Function.update d path (some (.h5 [(group, r.1)])), if r.2 then some "H5::DataSetIException" else none)

/-- The columns of hits (tpx3.cpp:655-702); `none` for a hit without time of flight, which legacy hits never are. -/
def legacyHitColumns (hits : List Hit) (labels : List Int) : Option PlainGroup :=
  (hits.mapM Hit.tofNs).map fun tof =>
    [(['x'], .ints (hits.map fun h => h.x)), (['y'], .ints (hits.map fun h => h.y)),
     ("tot_ns".toList, .doubles (hits.map Hit.totNs)), ("toa_ns".toList, .doubles (hits.map Hit.toaNs)),
     ("ftoa_ns".toList, .doubles (hits.map Hit.ftoaNs)), ("tof_ns".toList, .doubles tof),
     ("spidertime_ns".toList, .doubles (hits.map Hit.spidertimeNs)), ("labels".toList, .ints labels)]

/-- `saveHitsToHDF5` (tpx3.cpp:636-705). -/
def saveLegacyHits (fault : Option Nat) (path : Path) (hits : List Hit) (labels : List Int) (d : Disk) :
    Res (Disk × Option String) :=
  if hits.length ≠ labels.length then .ok (d, some "Hits and labels must have the same size")
  else match legacyHitColumns hits labels with
    | none => .ub .indeterminate
    | some cols => .ok (plainSave fault path "hits".toList cols d)

/-- The columns of events (tpx3.cpp:731-754): the time over threshold is not converted. -/
def legacyEventColumns (es : List Neutron) : PlainGroup :=
  [(['x'], .doubles (es.map fun e => e.x)), (['y'], .doubles (es.map fun e => e.y)),
   ("tof_ns".toList, .doubles (es.map Neutron.tofNs)), ("NHits".toList, .ints (es.map fun e => e.nHits)),
   ("tot".toList, .doubles (es.map fun e => e.tot))]

/-- `saveEventsToHDF5` (tpx3.cpp:713-757). -/
def saveLegacyEvents (fault : Option Nat) (path : Path) (es : List Neutron) (d : Disk) : Disk × Option String :=
  if es = [] then (d, some "No events to save") else plainSave fault path "events".toList (legacyEventColumns es) d

/-! ## The streaming program -/

/-- `process_batch` (sophiread_stream.cpp:26-35): the events of one batch.  The object is not deleted, which leaks memory. -/
def processBatch (solve : List GaussRow → F64 × F64) (batch : List Hit) : Res (List Neutron) := do
  let o ← ((AbsObj.new ⟨F64.ofRat 5, 1, 75⟩).setMethod "fast_gaussian").legacyFit batch
  o.legacyEvents solve batch

/-- The events of all batches in order (`neutron_events`, sophiread_stream.cpp:15, 32-34). -/
def processBatches (solve : List GaussRow → F64 × F64) : List (List Hit) → Res (List Neutron)
  | [] => .ok []
  | b :: bs => do
    let es ← processBatch solve b
    let rest ← processBatches solve bs
    .ok (es ++ rest)

/-- How the program ends. -/
inductive StreamEnd where
  | exit (code : Nat)
  /-- an exception that nothing catches -/
  | aborted (what : String)
  deriving DecidableEq

/-- `main` after both threads have ended (sophiread_stream.cpp:172-191): `out` are the batches the processor gave to
`process_batch`. -/
def streamFinish (solve : List GaussRow → F64 × F64) (fault : Option Nat) (out : List (List Hit)) (d : Disk) :
    Res (Disk × StreamEnd) := do
  let es ← processBatches solve out
  match saveLegacyEvents fault "events_streamed.h5".toList es d with
  | (d', none) => .ok (d', .exit 0)
  | (d', some e) => .ok (d', .aborted e)

end Verif
