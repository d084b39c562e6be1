import Verif.Model.Cli
import Verif.Model.Tiff

/-!
# The automatic reducer (SophireadCLI/src/venus_auto_reducer.cpp)

The input directory is an environment: every reading of it gives any listing, in any order.  A run is a relation;
executions with undefined behaviour have no successor here (`c47_empty_file_undefined` names the case that matters).
-/

namespace Verif

/-- A directory entry as `fs::directory_iterator` gives it, with the content found when the file is opened (`none`: it
cannot be opened). -/
structure DirEntry where
  name : Path
  regular : Bool
  content : Option Bytes
  deriving DecidableEq

/-- `fs::path::stem` and `extension` of a file name: split before the last point, unless it is the first character or
the name is `..`. -/
def pathExt (name : Path) : Path × Path :=
  let tail := name.reverse.takeWhile (fun c => !(c == '.'))
  let k := name.length - tail.length - 1
  if tail.length = name.length ∨ k = 0 ∨ name = ['.', '.'] then (name, []) else (name.take k, name.drop k)

def DirEntry.stem (e : DirEntry) : Path := (pathExt e.name).1

/-- venus_auto_reducer.cpp:137. -/
def DirEntry.isRaw (e : DirEntry) : Bool := e.regular && decide ((pathExt e.name).2 = ['.', 't', 'p', 'x', '3'])

/-- venus_auto_reducer.cpp:212-213. -/
def DirEntry.isNxs (e : DirEntry) : Bool :=
  e.regular && decide ((pathExt e.name).2 = ['.', 'h', '5']) && decide ((pathExt e.stem).2 = ['.', 'n', 'x', 's'])

/-- What is fixed during a run: options and configuration. -/
structure RedCtx where
  params : AbsParams
  solve : List GaussRow → F64 × F64
  sr : F64
  edges : List F64
  tofMode : String
  out : Path
  base : Path

/-- Reading the headers to making the images (venus_auto_reducer.cpp:149-168), in GDC mode. -/
def RedCtx.images (x : RedCtx) (buf : Bytes) (c : Clock) : Res (Stack × Clock) := do
  let r ← chunkEvents ⟨.gdc, x.params, x.solve⟩ buf c
  let im ← createImages x.sr x.edges x.tofMode r.1
  .ok (im, r.2)

/-- What was done with a file (recorded for the statements only). -/
inductive RedEvent where
  | done (name : Path) (data : Bytes) (im : Stack)
  | failed (name : Path)

def RedEvent.name : RedEvent → Path
  | .done n _ _ => n
  | .failed n => n

/-- `processed_files`, the output directory, and the record. -/
structure RedState where
  processed : List Path
  dir : Dir
  log : List RedEvent

/-- The loop of `process_existing_files` (venus_auto_reducer.cpp:136-183) over a listing.  The last argument says whether
the process has ended by `exit(EXIT_FAILURE)` (disk_io.cpp:29-32).  An exception may come from the configuration, from
making the images, from the lack of memory or of the output directory (502-505 of sophiread_core.cpp); it leaves the
images alone and the timestamps anywhere (the low half of the global time has 32 bits).  Exceptions in the middle of saving are not modelled. -/
inductive PollRun (x : RedCtx) : List DirEntry → Clock → RedState → RedState → Bool → Prop where
  | nil {c s} : PollRun x [] c s s false
  | other {e es c s s' b} : e.isRaw = false → PollRun x es c s s' b → PollRun x (e :: es) c s s' b
  | skip {e es c s s' b} : e.isRaw = true → e.stem ∈ s.processed → PollRun x es c s s' b → PollRun x (e :: es) c s s' b
  | exit {e es c s} : e.isRaw = true → e.stem ∉ s.processed → e.content = none → PollRun x (e :: es) c s s true
  | done {e es c s s' b data im c' d'} : e.isRaw = true → e.stem ∉ s.processed → e.content = some data →
      x.images data c = .ok (im, c') → SaveRun x.out x.base x.edges im s.dir d' →
      PollRun x es c' ⟨e.stem :: s.processed, d', s.log ++ [.done e.name data im]⟩ s' b → PollRun x (e :: es) c s s' b
  | failed {e es c s s' b data c'} : e.isRaw = true → e.stem ∉ s.processed → e.content = some data →
      c'.timer.toNat < 2 ^ 32 → PollRun x es c' ⟨s.processed, s.dir, s.log ++ [.failed e.name]⟩ s' b → PollRun x (e :: es) c s s' b

/-- How a run of `monitor_directory` stands. -/
inductive RedStatus where
  | running
  | stopped
  | exited
  deriving DecidableEq

/-- `monitor_directory` (venus_auto_reducer.cpp:209-225): each round lists the directory once for the `.nxs.h5` file and
once for the data; timestamps start from zero in every round (129-131). -/
inductive MonRun (x : RedCtx) : List (List DirEntry × List DirEntry) → RedState → RedState → RedStatus → Prop where
  | running {s} : MonRun x [] s s .running
  | stop {l1 l2 s} : l1.any DirEntry.isNxs = true → MonRun x [(l1, l2)] s s .stopped
  | exit {l1 l2 s s'} : l1.any DirEntry.isNxs = false → PollRun x l2 Clock.zero s s' true → MonRun x [(l1, l2)] s s' .exited
  | round {l1 l2 rest s s' s'' st} : l1.any DirEntry.isNxs = false → PollRun x l2 Clock.zero s s' false →
      MonRun x rest s' s'' st → MonRun x ((l1, l2) :: rest) s s'' st

/-- Start (venus_auto_reducer.cpp:263). -/
def RedState.init (d : Dir) : RedState := ⟨[], d, []⟩

end Verif
