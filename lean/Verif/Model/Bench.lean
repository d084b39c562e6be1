import Verif.Model.Cli
import Verif.Model.LegacySave
import Verif.Model.Text

/-!
# The memory-mapped program (FastSophiread/benchmarks/benchmark_mmap.cpp)

Left out: the timers, the progress line and the log lines with speeds.  `n_bad_hits` is an `int` in the code and counted
without a bound here.
-/

namespace Verif

/-! ## Options -/

/-- What `main` reads from its third argument (benchmark_mmap.cpp:195-216); `pulse = 0` is no rate. -/
structure MmapOptions where
  tbb : Bool
  mmap : Bool
  tgdc : Bool
  debug : Bool
  pulse : Nat
  deriving DecidableEq

/-- `strstr(s, pat) != NULL`. -/
def strstr (s : List Char) (pat : String) : Bool := decide (pat.toList <:+: s)

/-- The rates in the order of the code (benchmark_mmap.cpp:210-215): the last one that occurs wins. -/
def pulseRates : List (String × Nat) := [("1hz", 1), ("10hz", 10), ("15hz", 15), ("30hz", 30), ("45hz", 45), ("60hz", 60)]

/-- benchmark_mmap.cpp:195-216; `none`: no third argument. -/
def mmapOptions : Option (List Char) → MmapOptions
  | none => ⟨false, false, false, false, 0⟩
  | some a => ⟨strstr a "tbb", strstr a "mmap", strstr a "tgdc", strstr a "debug",
      pulseRates.foldl (fun r p => if strstr a p.1 then p.2 else r) 0⟩

/-! ## One round of the loop -/

/-- How `tbb::parallel_reduce` cuts the range of batches: one call of the body, or two halves, the right one taken by the
same body after the left one or, `forked`, by a split body that is joined afterwards. -/
inductive Cut where
  | whole
  | halves (forked : Bool) (at_ : Nat) (l r : Cut)

/-- `operator()` and the loop of the single thread (benchmark_mmap.cpp:323-332, 353-359): one clustering object for all
batches of the range. -/
def bodyLoop (c : ProcCtx) : AbsObj → List EventBatch → Res (List EventBatch)
  | _, [] => .ok []
  | alg, b :: bs => do
    let b' ← extractHits c.mode c.chunk b.batch
    let alg' ← alg.reset.fit b'.hits
    let es ← alg'.getEvents c.solve b'.hits
    let bs' ← bodyLoop c alg' bs
    .ok (⟨b', es⟩ :: bs')

/-- `parallel_reduce` with the body `ComputeEvents` (benchmark_mmap.cpp:299-346): the batches afterwards and `output` of the
body.  Different bodies work on different batches, so their order in time does not matter and the left one goes first. -/
def reduceCut (c : ProcCtx) : Cut → List EventBatch → List (List Neutron) → Res (List EventBatch × List (List Neutron))
  | .whole, bs, out => do
    let es ← bodyLoop c (AbsObj.new c.params) bs
    .ok (es, out ++ es.map fun e => e.neutrons)
  | .halves forked k l r, bs, out => do
    let a ← reduceCut c l (bs.take k) out
    if forked then do
      let b ← reduceCut c r (bs.drop k) []
      .ok (a.1 ++ b.1, a.2 ++ b.2)
    else do
      let b ← reduceCut c r (bs.drop k) a.2
      .ok (a.1 ++ b.1, b.2)

/-- The clustering of the program (benchmark_mmap.cpp:324, 353). -/
def mmapParams : AbsParams := ⟨F64.ofRat 5, 1, 75⟩

/-- The timestamps of the batches, only with the option `tgdc` (benchmark_mmap.cpp:291-297). -/
def mmapLocate (o : MmapOptions) (sub : Bytes) (bs : List Batch) (c : Clock) : Res (List Batch × Clock) :=
  if o.tgdc then locate .gdc sub bs c else .ok (bs, c)

/-- One round (benchmark_mmap.cpp:278-360): the batches, the new vectors of events, the bytes used and the timestamps.
`cut` is what the scheduler does; without `tbb` there is one body. -/
def mmapRound (solve : List GaussRow → F64 × F64) (o : MmapOptions) (cut : Cut) (buf : Bytes) (len off : Nat) (c : Clock) :
    Res (List EventBatch × List (List Neutron) × Nat × Clock) := do
  let f ← findTPX3HLim (buf.drop off) len
  let sub := (buf.drop off).take f.2
  let r ← mmapLocate o sub f.1 c
  let e ← reduceCut ⟨.gdc, sub, mmapParams, solve⟩ (if o.tbb then cut else .whole) (r.1.map fun b => ⟨b, []⟩) []
  .ok (e.1, e.2, f.2, r.2)

/-- `tof_ms > (1.0 / pulse_rate) + 1e-6` (benchmark_mmap.cpp:372-373). -/
def badTof (pulse : Nat) (tofNs : F64) : Bool :=
  F64.lt (F64.add (F64.div (F64.ofRat 1) (F64.ofRat pulse)) (F64.ofRat (1 / 1000000)))
    (F64.mul tofNs (F64.ofRat (1 / 1000000)))

/-- The bad hits among some hits (benchmark_mmap.cpp:370-378). -/
def countBad (pulse : Nat) : List Hit → Res Nat
  | [] => .ok 0
  | h :: hs =>
    match h.tofNs with
    | none => .ub .indeterminate
    | some t => do
      let n ← countBad pulse hs
      .ok (if badTof pulse t then n + 1 else n)

/-- The bad hits of a round: none without a rate (benchmark_mmap.cpp:368-379). -/
def roundBad (o : MmapOptions) (hits : List Hit) : Res Nat := if o.pulse = 0 then .ok 0 else countBad o.pulse hits

/-! ## The loop -/

/-- The variables of `main`. -/
structure MmapState where
  offset : Nat
  clock : Clock
  vectors : List (List Neutron)
  hits : Nat
  bad : Nat
  events : Nat

/-- benchmark_mmap.cpp:218-222, 241-249. -/
def MmapState.start : MmapState := ⟨0, Clock.zero, [], 0, 0, 0⟩

/-- The state after a round (benchmark_mmap.cpp:346-385).  `n_events` grows by the size of all of `events`, which holds those
of the earlier rounds as well. -/
def MmapState.next (o : MmapOptions) (s : MmapState) (r : List EventBatch × List (List Neutron) × Nat × Clock) :
    Res MmapState := do
  let hits := r.1.flatMap fun e => e.batch.hits
  let bad ← roundBad o hits
  let vectors := s.vectors ++ r.2.1
  .ok ⟨s.offset + r.2.2.1, r.2.2.2, vectors, s.hits + hits.length, s.bad + bad,
    s.events + (vectors.map List.length).sum⟩

/-- `while (raw_data_consumed < raw_data.max)` (benchmark_mmap.cpp:275-396), at most `fuel` rounds; `none`: not ended.
`cuts k` is what the scheduler does with `k` rounds left. -/
def mmapLoop (solve : List GaussRow → F64 × F64) (o : MmapOptions) (cuts : Nat → Cut) (buf : Bytes) (len : Nat) :
    Nat → MmapState → Res (Option MmapState)
  | 0, s => if s.offset < buf.length then .ok none else .ok (some s)
  | fuel + 1, s =>
    if s.offset < buf.length then do
      let r ← mmapRound solve o (cuts fuel) buf len s.offset s.clock
      let s' ← s.next o r
      mmapLoop solve o cuts buf len fuel s'
    else .ok (some s)

/-! ## Output -/

/-- The copy that is written: the time of flight of the copy is the converted one of the event
(benchmark_mmap.cpp:430-437). -/
def gathered (vectors : List (List Neutron)) : List Neutron := vectors.flatten.map fun e => { e with tof := e.tofNs }

/-- ASCII text as bytes. -/
def asciiBytes (l : List Char) : Bytes := l.map fun c => BitVec.ofNat 8 c.toNat

/-- One line of the text file (benchmark_mmap.cpp:120-123). -/
def csvLine (e : Neutron) : List Char :=
  doubleText e.x ++ ',' :: doubleText e.y ++ ',' :: doubleText e.tofNs ++ ',' :: intText e.nHits ++
    ',' :: doubleText e.tot ++ ['\n']

/-- What one call of `saveEventsToCSV` writes (benchmark_mmap.cpp:116-123). -/
def csvText (es : List Neutron) : List Char := "X,Y,TOF (ns),Nhits, TOT\n".toList ++ (es.map csvLine).flatten

/-- `saveEventsToCSV` (benchmark_mmap.cpp:102-127): the file is opened for appending.  Text after the end of an HDF5 file is
ignored by the HDF5 library and left out.  `true`: `exit(EXIT_FAILURE)`. -/
def saveCsv (canOpen : Bool) (path : Path) (es : List Neutron) (d : Disk) : Disk × Bool :=
  if es = [] then (d, false)
  else if !canOpen then (d, true)
  else
    (Function.update d path (match d path with
      | none => some (.other (asciiBytes (csvText es)))
      | some (.other c) => some (.other (c ++ asciiBytes (csvText es)))
      | some (.h5 f) => some (.h5 f)), false)

/-- The conversion of a `double` to `uint16_t`; `none` is undefined. -/
def toU16? : F64 → Option Nat
  | .fin q => if -1 < q ∧ q < 65536 then some (F64.truncQ q).toNat else none
  | _ => none

/-- `(uint16_t)(event.getX() * 65535 / 512.0)` (benchmark_mmap.cpp:156-159). -/
def binCoord (x : F64) : Option Nat := toU16? (F64.div (F64.mul x (F64.ofRat 65535)) (F64.ofRat 512))

/-- `file << x << y << tof << nhits << tot` (benchmark_mmap.cpp:156-164): decimal digits, nothing between the numbers. -/
def binRecord (e : Neutron) : Option (List Char) := do
  let x ← binCoord e.x
  let y ← binCoord e.y
  let tof ← F64.toU64? e.tofNs
  let tot ← toU16? e.tot
  some (natText x ++ natText y ++ natText tof ++ natText (BitVec.ofInt 16 e.nHits).toNat ++ natText tot)

/-- `saveEventsToBIN` (benchmark_mmap.cpp:137-169). -/
def saveBin (canOpen : Bool) (path : Path) (es : List Neutron) (d : Disk) : Res (Disk × Bool) :=
  if es = [] then .ok (d, false)
  else if !canOpen then .ok (d, true)
  else
    match es.mapM binRecord with
    | none => .ub .floatToInt
    | some rs => .ok (Function.update d path (some (.other (asciiBytes rs.flatten))), false)

/-- The columns of benchmark_mmap.cpp:60-89. -/
def mmapColumns (es : List Neutron) : PlainGroup :=
  [(['x'], .doubles (es.map fun e => e.x)), (['y'], .doubles (es.map fun e => e.y)),
   ("tof".toList, .doubles (es.map Neutron.tofNs)), ("nHits".toList, .ints (es.map fun e => e.nHits)),
   ("tot".toList, .doubles (es.map fun e => e.tot))]

/-- `saveEventsToHDF5` (benchmark_mmap.cpp:46-92). -/
def saveMmapH5 (fault : Option Nat) (path : Path) (es : List Neutron) (d : Disk) : Disk × Option String :=
  if es = [] then (d, none) else plainSave fault path "neutrons".toList (mmapColumns es) d

/-- `endsWith` (benchmark_mmap.cpp:172-179). -/
def nameEndsWith (s : List Char) (ending : String) : Bool := decide (ending.toList <:+ s)

/-- How the program ends. -/
inductive MmapEnd where
  | exit (code : Nat)
  | aborted (what : String)
  deriving DecidableEq

/-- The end of `main` (benchmark_mmap.cpp:399-470); `out`: the second argument. -/
def mmapFinish (canOpen : Bool) (fault : Option Nat) (out : Option Path) (s : MmapState) (d : Disk) : Res (Disk × MmapEnd) :=
  match out with
  | none => .ok (d, .exit 0)
  | some path =>
    if s.events = 0 then .ok (d, .exit 0)
    else
      let v := gathered s.vectors
      if nameEndsWith path ".csv" then
        match saveCsv canOpen path v d with
        | (d', failed) => .ok (d', .exit (if failed then 1 else 0))
      else if nameEndsWith path ".bin" then do
        let r ← saveBin canOpen path v d
        .ok (r.1, .exit (if r.2 then 1 else 0))
      else if nameEndsWith path ".h5" then
        match saveMmapH5 fault path v d with
        | (d', none) => .ok (d', .exit 0)
        | (d', some e) => .ok (d', .aborted e)
      else .ok (d, .exit 0)

/-! ## `main` -/

/-- What the program finds. -/
structure MmapEnv where
  /-- the input; `none`: it cannot be opened for reading -/
  input : Option Bytes
  /-- it can be opened for writing too -/
  writable : Bool
  /-- `malloc` or `mmap` succeeds -/
  memory : Bool
  /-- `MAX_BATCH_LEN` (tpx3_fast.cpp:25-32), never 0 -/
  limit : Nat

/-- The input in memory (disk_io.cpp:57-117 and benchmark_mmap.cpp:256-259): `.ok none` is `exit(EXIT_FAILURE)`.  A failed
`mmap` gives `MAP_FAILED`, which is not the null pointer: the program goes on and reads from that address, unless the file
is empty, in which case `mmap` always fails and nothing is read. -/
def mmapInput (o : MmapOptions) (env : MmapEnv) : Res (Option Bytes) :=
  match env.input with
  | none => .ok none
  | some f =>
    if o.mmap then
      if !env.writable then .ok none
      else if f = [] then .ok (some [])
      else if env.memory then .ok (some f) else .ub .oobRead
    else if env.memory then .ok (some f) else .ok none

/-- `main` (benchmark_mmap.cpp:181-471) with the arguments after the name of the program; `.ok none`: not ended. -/
def mmapMain (solve : List GaussRow → F64 × F64) (cuts : Nat → Cut) (fuel : Nat) (canOpen : Bool) (fault : Option Nat)
    (args : List (List Char)) (env : MmapEnv) (d : Disk) : Res (Option (Disk × MmapEnd)) :=
  if args = [] then .ok (some (d, .exit 1))
  else do
    let o := mmapOptions args[2]?
    match ← mmapInput o env with
    | none => .ok (some (d, .exit 1))
    | some buf =>
      match ← mmapLoop solve o cuts buf env.limit fuel MmapState.start with
      | none => .ok none
      | some s => do
        let r ← mmapFinish canOpen fault args[1]? s d
        .ok (some r)

end Verif
