import Verif.Model.Cli
import Verif.Model.Getopt
import Verif.Model.H5

/-!
# The command line program as a whole (SophireadCLI/src/sophiread.cpp:32-375)

Log output is left out, and so is running out of memory.
-/

namespace Verif

/-! ## Command line -/

/-- `struct ProgramOptions` (sophiread.cpp:32-45). -/
structure ProgramOptions where
  input : Path := []
  outHits : Path := []
  outEvents : Path := []
  configFile : Path := []
  outTof : Path := []
  tofBase : Path := "tof_image".toList
  tofMode : List Char := "neutron".toList
  spectra : Path := "Spectra".toList
  timing : List Char := "tdc".toList
  chunkSize : Nat := 5 * 1024 * 1024 * 1024
  debug : Bool := false
  verbose : Bool := false
  deriving DecidableEq

/-- Option letters with an argument and without one: the string `"i:H:E:u:T:f:m:t:s:c:dv"` (sophiread.cpp:91). -/
def argLetters : List Char := ['i', 'H', 'E', 'u', 'T', 'f', 'm', 't', 's', 'c']
def flagLetters : List Char := ['d', 'v']

/-- Body of the loop (sophiread.cpp:92-134). -/
def applyItem (o : ProgramOptions) : OptItem → Res ProgramOptions
  | .flag 'd' => .ok { o with debug := true }
  | .flag 'v' => .ok { o with verbose := true }
  | .arg 'i' v => .ok { o with input := v }
  | .arg 'H' v => .ok { o with outHits := v }
  | .arg 'E' v => .ok { o with outEvents := v }
  | .arg 'u' v => .ok { o with configFile := v }
  | .arg 'T' v => .ok { o with outTof := v }
  | .arg 'f' v => .ok { o with tofBase := v }
  | .arg 'm' v => .ok { o with tofMode := v }
  | .arg 't' v => .ok { o with timing := v }
  | .arg 's' v => .ok { o with spectra := v }
  | .arg 'c' v => (stoull v).bind fun mb => .ok { o with chunkSize := chunkSizeOf mb }
  | _ => .throws "Invalid argument"

def applyItems : ProgramOptions → List OptItem → Res ProgramOptions
  | o, [] => .ok o
  | o, i :: is => (applyItem o i).bind fun o' => applyItems o' is

/-- The checks after the loop (sophiread.cpp:137-153). -/
def validateOptions (o : ProgramOptions) : Res ProgramOptions :=
  if o.input = [] then .throws "Missing required arguments"
  else if o.tofMode ≠ "hit".toList ∧ o.tofMode ≠ "neutron".toList then .throws "Invalid TOF mode"
  else if o.timing ≠ "gdc".toList ∧ o.timing ≠ "tdc".toList then .throws "Invalid timing mode"
  else .ok o

/-- `parse_arguments` (sophiread.cpp:87-154) on the words after the program name. -/
def parseArguments (argv : List Arg) : Res ProgramOptions :=
  (applyItems {} (getoptGo argLetters flagLetters none argv)).bind validateOptions

/-! ## Configuration -/

/-- What the program takes from the configuration.  The bin edges are only computed when they are needed. -/
structure Settings where
  params : AbsParams
  sr : F64
  edges : Res (List F64)

/-- The getters of a JSON configuration, called in this order by `toString` before anything else
(sophiread.cpp:213, json_config_parser.cpp:124-139). -/
def JsonConfig.settings (c : JsonConfig) : Res Settings := do
  let r ← c.radius
  let m ← c.minClusterSize
  let t ← c.spiderTimeRange
  let s ← c.superResolution
  .ok ⟨⟨r, m.toNat, t.toNat⟩, s, c.binEdges⟩

/-- The getters of a text configuration (user_config.h:26-50). -/
def UserConfig.settings (c : UserConfig) : Settings :=
  ⟨⟨c.radius, c.minClusterSize.toNat, c.spiderTimeRange.toNat⟩, c.superResolution, c.binning.getBinEdges⟩

/-! ## Processing -/

/-- Failures of library calls while one batch is written. -/
structure BatchFaults where
  hitGroup : Option GFault := none
  hitColumn : Nat → Option DFault := fun _ => none
  eventGroup : Option GFault := none
  eventColumn : Nat → Option DFault := fun _ => none

/-- The open HDF5 files, the images and the counters (sophiread.cpp:220-250). -/
structure Outputs where
  hits : H5
  events : H5
  images : Stack
  totalHits : U64
  totalNeutrons : U64
  deriving DecidableEq

/-- `needs_tof_images` (sophiread.cpp:230-231). -/
def ProgramOptions.needsImages (o : ProgramOptions) : Bool := !o.outTof.isEmpty || !o.spectra.isEmpty

/-- How the loop body leaves: normally, or with an exception of the HDF5 library.  `H5::Exception` is not derived from
`std::exception`, so no handler of the program catches it and the process is terminated. -/
inductive Leave where
  | normal
  | terminate
  deriving DecidableEq

/-- Output of one batch (sophiread.cpp:284-314). -/
def outputBatch (o : ProgramOptions) (sr : F64) (edges : List F64) (fl : BatchFaults) (b : EventBatch) (w : Outputs) :
    Res (Outputs × Leave) :=
  match (if o.outHits = [] then .ok w.hits else appendHits fl.hitGroup fl.hitColumn b.batch.hits w.hits : Res H5) with
  | .ub u => .ub u
  | .throws _ => .ok (w, .terminate)
  | .ok h => match (if o.outEvents = [] then .ok (w.events, false)
      else appendNeutrons fl.eventGroup fl.eventColumn b.neutrons w.events : Res (H5 × Bool)) with
    | .ub u => .ub u
    | .throws _ => .ok ({ w with hits := h }, .terminate)
    | .ok (e, true) => .ok ({ w with hits := h, events := e }, .terminate)
    | .ok (e, false) =>
      match (if o.needsImages then updateImages sr edges (String.ofList o.tofMode) w.images b else .ok w.images : Res Stack) with
      | .ub u => .ub u
      | .throws m => .throws m
      | .ok im => .ok (⟨h, e, im, w.totalHits + BitVec.ofNat 64 b.batch.hits.length,
          w.totalNeutrons + BitVec.ofNat 64 b.neutrons.length⟩, .normal)

/-- Output of all batches of a chunk (sophiread.cpp:284-314); `k` counts the batches of the run, for the failures. -/
def outputBatches (o : ProgramOptions) (sr : F64) (edges : List F64) (fl : Nat → BatchFaults) :
    Nat → List EventBatch → Outputs → Res (Outputs × Leave)
  | _, [], w => .ok (w, .normal)
  | k, b :: bs, w => match outputBatch o sr edges (fl k) b w with
    | .ok (w', .normal) => outputBatches o sr edges fl (k + 1) bs w'
    | r => r

/-- How the loop over the chunks ends. -/
inductive LoopEnd where
  | finished (w : Outputs)
  | terminated (w : Outputs)
  /-- not ended within the given number of rounds -/
  | running

/-- The loop over the chunks (sophiread.cpp:252-332).  An exception derived from `std::exception` is caught and the loop
goes on; none is raised by the code modelled here (`chunkEvents_no_throw`, `updateImages_no_throw`). -/
def mainLoop (o : ProgramOptions) (x : CliCtx) (sr : F64) (edges : List F64) (fl : Nat → BatchFaults) :
    Nat → Nat → Reader → Clock → Outputs → Res LoopEnd
  | 0, _, _, _, _ => .ok .running
  | fuel + 1, k, r, c, w =>
    if r.isEOF then .ok (.finished w)
    else
      let d := r.readChunk o.chunkSize
      if d.1 = [] then .ok (.finished w)
      else match chunkEvents x d.1 c with
        | .ub u => .ub u
        | .throws _ => mainLoop o x sr edges fl fuel k d.2 c w
        | .ok e => match outputBatches o sr edges fl k e.1 w with
          | .ub u => .ub u
          | .throws _ => mainLoop o x sr edges fl fuel (k + e.1.length) d.2 e.2 w
          | .ok (w', .terminate) => .ok (.terminated w')
          | .ok (w', .normal) => mainLoop o x sr edges fl fuel (k + e.1.length) d.2 e.2 w'

/-- `options.timing_mode` as the mode of the packet loop (sophiread.cpp:264-278). -/
def ProgramOptions.mode (o : ProgramOptions) : Mode := if o.timing = "gdc".toList then .gdc else .tdc

/-- From the open input file to the end of the loop (sophiread.cpp:215-332).  Truncating the mapped input file makes every
later read of it a bus error.  Opening a file for the second time with truncation fails with an HDF5 exception. -/
def mainCore (o : ProgramOptions) (s : Settings) (solve : List GaussRow → F64 × F64) (fl : Nat → BatchFaults) (fuel : Nat)
    (file : Bytes) : Res LoopEnd :=
  match Reader.open file with
  | .throws e => .throws e
  | .ub u => .ub u
  | .ok r =>
    if o.outHits = o.input ∨ o.outEvents = o.input then .ub .oobRead
    else if o.outHits ≠ [] ∧ o.outHits = o.outEvents then .ok (.terminated ⟨[], [], [], 0, 0⟩)
    else match (if o.needsImages then s.edges.bind fun es => (initImages s.sr es).bind fun im => .ok (es, im)
        else .ok ([], []) : Res (List F64 × Stack)) with
      | .throws e => .throws e
      | .ub u => .ub u
      | .ok (es, im) => mainLoop o ⟨o.mode, s.params, solve⟩ s.sr es fl fuel 0 r Clock.zero ⟨[], [], im, 0, 0⟩

/-- The files written after the loop (sophiread.cpp:351-368). -/
def MainFiles (o : ProgramOptions) (s : Settings) (w : Outputs) (d d' : Dir) : Prop :=
  ∃ d1, (if o.outTof = [] then d1 = d
      else ∃ es, s.edges = .ok es ∧ SaveRun o.outTof o.tofBase es w.images d d1) ∧
    (if o.spectra = [] then d' = d1
      else ∃ es rows, s.edges = .ok es ∧ spectraRows es (spectralCounts w.images) = .ok rows ∧
        d' = Function.update d1 (o.spectra ++ ".txt".toList) (some (.spectra rows)))

/-- A run that returns 0 (sophiread.cpp:163-374): options, configuration `conf` (a function of the path, empty for the
default), loop without termination, files. -/
def MainReturnsZero (argv : List Arg) (conf : Path → Res Settings) (solve : List GaussRow → F64 × F64)
    (input : Path → Option Bytes) (fl : Nat → BatchFaults) (o : ProgramOptions) (w : Outputs) (d d' : Dir) : Prop :=
  ∃ s file fuel, parseArguments argv = .ok o ∧ conf o.configFile = .ok s ∧ input o.input = some file ∧
    mainCore o s solve fl fuel file = .ok (.finished w) ∧ MainFiles o s w d d'

end Verif
