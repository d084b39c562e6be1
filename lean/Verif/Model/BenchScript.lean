import Verif.Model.Bench

/-!
# The script that runs the memory-mapped program and compares its results (FastSophiread/benchmarks/benchmark.sh)

Left out: the files `.info`, `.result` and `.csv` with times and speeds (lines 50-64, 96-114), and directories or names with blanks.  The
script looks at no exit code of the program (lines 43, 59), so a run that fails or is aborted only leaves the disk as it is at that moment.
-/

namespace Verif

/-- The circumstances of one run of the program. -/
structure BenchWorld where
  cuts : Nat → Cut
  fuel : Nat
  canOpen : Bool
  fault : Option Nat
  env : MmapEnv

/-- `result=result/$y` (benchmark.sh:31-32). -/
def benchDir (y : List Char) : Path := "result/".toList ++ y

/-- `${result}/${y}.verify.${EXT}` (benchmark.sh:49). -/
def benchBase (y ext : List Char) : Path := benchDir y ++ '/' :: (y ++ ".verify.".toList ++ ext)

/-- `${result}/${y}.${CFG}.${i}.${EXT}` (benchmark.sh:59). -/
def benchResult (y ext cfg : List Char) (i : Nat) : Path := benchDir y ++ '/' :: (y ++ '.' :: (cfg ++ '.' :: (natText i ++ '.' :: ext)))

/-- `CFG=${m}+${c}+tgdc` for the two loops (benchmark.sh:52-54). -/
def benchConfigs : List (List Char) :=
  ["stream+tbb+tgdc".toList, "stream+verify+tgdc".toList, "mmap+tbb+tgdc".toList, "mmap+verify+tgdc".toList]

/-- The second and third argument of the runs, in order (benchmark.sh:49, 52-60): the one to compare with, and `itr` for each setting. -/
def benchJobs (y ext : List Char) (itr : Nat) : List (Path × List Char) :=
  (benchBase y ext, "verify+tgdc".toList) ::
    benchConfigs.flatMap fun cfg => (List.range' 1 itr).map fun i => (benchResult y ext cfg i, cfg)

/-- One run after the other (benchmark.sh:49, 59); `.ok none`: one does not end. -/
def benchRuns (solve : List GaussRow → F64 × F64) (input : Path) : List ((Path × List Char) × BenchWorld) → Disk → Res (Option Disk)
  | [], d => .ok (some d)
  | (j, w) :: js, d => do
    match ← mmapMain solve w.cuts w.fuel w.canOpen w.fault [input, j.1, j.2] w.env d with
    | none => .ok none
    | some r => benchRuns solve input js r.1

/-- What `diff -b` looks at: a run of blanks counts as one, none at the end of a line. -/
def squeezed : Bytes → Bytes
  | [] => []
  | b :: bs =>
    if b = 0x20#8 ∨ b = 0x09#8 ∨ b = 0x0B#8 ∨ b = 0x0C#8 ∨ b = 0x0D#8 then
      match squeezed bs with
      | [] => []
      | c :: cs => if c = 0x0A#8 ∨ c = 0x20#8 then c :: cs else 0x20#8 :: c :: cs
    else b :: squeezed bs

/-- `$DIFF a b` ends with 0 (benchmark.sh:23-29, 78).  `h5diff` fails on files that are not HDF5; two HDF5 files count as different for
`diff`, which compares their bytes (the program gives no HDF5 file such a name). -/
def sameResult (ext : List Char) (a b : DiskFile) : Bool :=
  if ext = "h5".toList then
    match a, b with
    | .h5 f, .h5 g => decide (f = g)
    | _, _ => false
  else
    match a, b with
    | .other f, .other g => if ext = "bin".toList then decide (squeezed f = squeezed g) else decide (f = g)
    | _, _ => false

/-- `dirname`. -/
def dirOf (p : Path) : Path := (splitDir p).1.dropLast

/-- `${d}/${b}.verify.${EXT}` of a file (benchmark.sh:73-75). -/
def benchBaseOf (ext : List Char) (p : Path) : Path := dirOf p ++ '/' :: ((splitDir (dirOf p)).2 ++ ".verify.".toList ++ ext)

/-- What the script says (benchmark.sh:87-93). -/
inductive BenchVerdict where
  | nothing
  | all (total : Nat)
  | mismatched (differences total : Nat)
  deriving DecidableEq, Repr

/-- The loop over the files found (benchmark.sh:72-86): total and differences. -/
def benchCount (ext : List Char) (d : Disk) : List Path → Nat × Nat
  | [] => (0, 0)
  | p :: ps =>
    match d (benchBaseOf ext p), d p with
    | some a, some b => ((benchCount ext d ps).1 + 1, (benchCount ext d ps).2 + if sameResult ext a b then 0 else 1)
    | some _, none => ((benchCount ext d ps).1 + 1, (benchCount ext d ps).2 + 1)
    | none, _ => benchCount ext d ps

/-- `found`: what `find result -name "*.${EXT}"` prints (benchmark.sh:72). -/
def benchVerdict (ext : List Char) (d : Disk) (found : List Path) : BenchVerdict :=
  let c := benchCount ext d found
  if c.1 = 0 then .nothing else if c.2 = 0 then .all c.1 else .mismatched c.2 c.1

end Verif
