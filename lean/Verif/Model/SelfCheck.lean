import Verif.Model.Bench
import Verif.Model.H5

/-!
# The other benchmarks (FastSophiread/benchmarks/benchmark_raw2events.cpp, benchmark_raw2hits.cpp)

Left out: the timers and speeds, and the log lines of single hits.  The threads are in `Model/Raw2Hits.lean`.  The numbers of hits are `int` in the code and counted without a bound here.
-/

namespace Verif

/-! ## From raw data to events -/

/-- `std::string tmp_file` (benchmark_raw2events.cpp:146). -/
def verifyName : Path := "verify_spidertime.h5".toList

/-- `tof_ms > 16.67` (benchmark_raw2events.cpp:35-36). -/
def lateTof (tofNs : F64) : Bool := F64.lt (F64.ofRat (1667 / 100)) (F64.mul tofNs (F64.ofRat (1 / 1000000)))

/-- `check_bad_tof` (benchmark_raw2events.cpp:27-45): the number of bad hits. -/
def checkBadTof : List Hit → Res Nat
  | [] => .ok 0
  | h :: hs =>
    match h.tofNs with
    | none => .ub .indeterminate
    | some t => do
      let n ← checkBadTof hs
      .ok (if lateTof t then n + 1 else n)

/-- The loops that look for the largest value (benchmark_raw2events.cpp:133-141, 164-169). -/
def maxOf (xs : List F64) : F64 := xs.foldl (fun m x => if F64.lt m x then x else m) (.fin 0)

/-- What `run_single_thread` reports. -/
structure SelfReport where
  hits : Nat
  bad : Nat
  /-- the largest arrival time of the hits in memory -/
  memory : F64
  /-- the largest arrival time read back -/
  file : F64
  deriving DecidableEq

/-- Opening the file, the group and the dataset and reading it (benchmark_raw2events.cpp:156-162). -/
def readSpider (fs : Fs) : Res (List F64) :=
  match fs verifyName with
  | some (.h5 f) =>
    match (f.lookup "hits".toList).bind fun g => g.lookup "spidertime_ns".toList with
    | some d => .ok d.data
    | none => .throws "H5"
  | _ => .throws "H5"

/-- `run_single_thread(raw_data, true)` (benchmark_raw2events.cpp:53-172); `micros` as in `saveNew`. -/
def raw2events (solve : List GaussRow → F64 × F64) (micros : Nat) (buf : Bytes) (fs : Fs) : Res (SelfReport × Fs) := do
  let bs ← findTPX3H buf
  let r ← locate .gdc buf bs Clock.zero
  let es ← bodyLoop ⟨.gdc, buf, mmapParams, solve⟩ (AbsObj.new mmapParams) (r.1.map fun b => ⟨b, []⟩)
  let hits := es.flatMap fun e => e.batch.hits
  let bad ← checkBadTof hits
  let cols ← columnData hitColumns hits
  let fs' ← saveNew micros verifyName "hits".toList cols hits.length fs
  let col ← readSpider fs'
  .ok (⟨hits.length, bad, maxOf (hits.map fun h => h.spidertimeNs), maxOf col⟩, fs')

/-! ## From raw data to hits -/

/-- `run_single_thread` (benchmark_raw2hits.cpp:21-42): the number of hits.  No timestamps are located. -/
def raw2hits (buf : Bytes) : Res Nat := do
  let bs ← findTPX3H buf
  let es ← extractAll .gdc buf bs
  .ok (es.flatMap Batch.hits).length

end Verif
