import Verif.Model.Image

/-!
# Saving image stacks (SophireadCLI/src/sophiread_core.cpp:495-626)

The file system is a map from paths to contents.  libtiff is taken to read back what it wrote; only 32-bit samples
exist (every TIFF file here is one written by this function).
-/

namespace Verif

abbrev Path := List Char

/-- A TIFF file with 32-bit samples. -/
structure Tiff where
  width : Nat
  height : Nat
  rows : List (List U32)
  deriving DecidableEq

/-- Contents of a file: an image, something `TIFFOpen` refuses, or a spectrum. -/
inductive File where
  | tiff (t : Tiff)
  | unreadable
  | spectra (rows : List (F64 × U64))
  deriving DecidableEq

abbrev Dir := Path → Option File

/-- `{:04d}`: decimal digits, padded with zeros to four. -/
def pad4 (n : Nat) : List Char := List.replicate (4 - (Nat.toDigits 10 n).length) '0' ++ Nat.toDigits 10 n

/-- `fmt::format("{}/{}_bin_{:04d}.tiff", …, bin + 1)` (sophiread_core.cpp:514-516). -/
def tiffName (out base : Path) (bin : Nat) : Path :=
  out ++ ['/'] ++ base ++ ['_', 'b', 'i', 'n', '_'] ++ pad4 (bin + 1) ++ ['.', 't', 'i', 'f', 'f']

/-- `fmt::format("{}/{}_Spectra.txt", …)` (sophiread_core.cpp:583-584). -/
def spectraName (out base : Path) : Path :=
  out ++ ['/'] ++ base ++ ['_', 'S', 'p', 'e', 'c', 't', 'r', 'a', '.', 't', 'x', 't']

/-- `accumulated_image[row][col] += scanline[col]` for `col < width` (sophiread_core.cpp:537-541).  A missing scanline
leaves the freshly made buffer of zeros. -/
def addRow (width : Nat) (row scan : List U32) : Res (List U32) :=
  if row.length < width then .ub .oobWrite
  else .ok (row.mapIdx fun k v => if k < width then v + scan.getD k 0 else v)

/-- All rows from number `k` on. -/
def addRows (width : Nat) (old : List (List U32)) : Nat → List (List U32) → Res (List (List U32))
  | _, [] => .ok []
  | k, row :: rows => do
    let r ← addRow width row (old.getD k [])
    let rs ← addRows width old (k + 1) rows
    .ok (r :: rs)

/-- Filling the container and adding an existing file of the same size (sophiread_core.cpp:518-557).
`tof_images[bin][0]` does not exist for an image without rows.  `width` and `height` are 32-bit; sizes are taken to be
below 2^32. -/
def accumulate (img : List (List U32)) (old : Option File) : Res (List (List U32)) := match img with
  | [] => .ub .oobRead
  | first :: rest => match old with
    | some (.tiff t) =>
      if t.width = first.length ∧ t.height = (first :: rest).length then addRows first.length t.rows 0 (first :: rest)
      else .ok (first :: rest)
    | _ => .ok (first :: rest)

/-- Writing (sophiread_core.cpp:561-576): `width` samples of each row. -/
def writeTiff (img acc : List (List U32)) : Res Tiff := match img with
  | [] => .ub .oobRead
  | first :: _ =>
    if acc.all fun r => first.length ≤ r.length then
      .ok ⟨first.length, img.length, acc.map (List.take first.length)⟩
    else .ub .oobRead

/-- Where the body of the parallel loop stands for one bin. -/
inductive TiffPhase where
  | start
  | acc (rows : List (List U32))
  /-- file opened for writing, hence truncated -/
  | opened (rows : List (List U32))
  | done
  | failed (u : UB)
  deriving DecidableEq

/-- Next action for a bin with image `img` whose file has content `f`: new phase and content. -/
def tiffAct (img : List (List U32)) (f : Option File) : TiffPhase → Option (TiffPhase × Option File)
  | .start => match accumulate img f with
    | .ok a => some (.acc a, f)
    | .ub u => some (.failed u, f)
    | .throws _ => none
  | .acc a => some (.opened a, some .unreadable)
  | .opened a => match writeTiff img a with
    | .ok t => some (.done, some (.tiff t))
    | .ub u => some (.failed u, f)
    | .throws _ => none
  | .done => none
  | .failed _ => none

/-- The directory and the phase of every bin. -/
structure SaveState where
  dir : Dir
  phase : Nat → TiffPhase

/-- Start of the parallel loop. -/
def SaveState.init (d : Dir) : SaveState := ⟨d, fun _ => .start⟩

/-- One action for bin `i` (sophiread_core.cpp:508-580), by whichever thread has it.  All orders of the bins are
allowed, more than `tbb::parallel_for` produces. -/
def SaveStep (out base : Path) (im : Stack) (s s' : SaveState) : Prop :=
  ∃ i img ph f, im[i]? = some img ∧ tiffAct img (s.dir (tiffName out base i)) (s.phase i) = some (ph, f) ∧
    s' = ⟨Function.update s.dir (tiffName out base i) f, Function.update s.phase i ph⟩

/-- Any number of actions. -/
inductive SaveReach (out base : Path) (im : Stack) : SaveState → SaveState → Prop where
  | refl (s) : SaveReach out base im s s
  | step {s t u} : SaveReach out base im s t → SaveStep out base im t u → SaveReach out base im s u

/-- `writeSpectralFile` (sophiread_core.cpp:611-626).  `tof_bin_edges.size() - 1` wraps without edges.  A row is
a pair of numbers here; the text made of it is in Model/Text.lean. -/
def spectraRows (edges : List F64) (counts : List U64) : Res (List (F64 × U64)) :=
  if edges = [] ∨ counts.length < edges.length - 1 then .ub .oobRead
  else .ok (edges.tail.zip counts)

/-- `timedSaveTOFImagingToTIFF` (sophiread_core.cpp:495-594): a complete run of the loop without undefined behaviour,
then the spectrum. -/
def SaveRun (out base : Path) (edges : List F64) (im : Stack) (d d' : Dir) : Prop :=
  ∃ s rows, SaveReach out base im (SaveState.init d) s ∧ (∀ i, i < im.length → s.phase i = .done) ∧
    spectraRows edges (spectralCounts im) = .ok rows ∧
    d' = Function.update s.dir (spectraName out base) (some (.spectra rows))

/-- A sequence of calls. -/
inductive SaveRuns (out base : Path) (edges : List F64) : List Stack → Dir → Dir → Prop where
  | nil (d) : SaveRuns out base edges [] d d
  | cons {im ims d d1 d2} : SaveRun out base edges im d d1 → SaveRuns out base edges ims d1 d2 →
      SaveRuns out base edges (im :: ims) d d2

end Verif
