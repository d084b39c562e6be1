import Verif.Model.Peak
import Verif.Model.Tiff

/-!
# HDF5 output (FastSophiread/src/disk_io.cpp:129-368, 499-668)

The HDF5 library is modelled by what this code uses of it: a file is a list of named groups, a group a list of named
datasets, a dataset a list of doubles.  Every library call that changes a file can fail; a failed `write` leaves the
fill value 0 in the new elements.  Failing to close and partial writes are left out.
-/

namespace Verif

/-- One-dimensional dataset of doubles; `extendible` when made with unlimited maximal size. -/
structure Dataset where
  data : List F64
  extendible : Bool
  deriving DecidableEq

abbrev Name := List Char
abbrev Group := List (Name × Dataset)
abbrev H5 := List (Name × Group)

/-- Where a call of `createOrExtendDataset` fails. -/
inductive DFault where
  /-- `openDataSet` -/
  | open
  /-- `extend` or `createDataSet` -/
  | resize
  /-- `write` -/
  | write
  deriving DecidableEq

/-- Replace the value of a key. -/
def setKey {α : Type} (k : Name) (v : α) (l : List (Name × α)) : List (Name × α) :=
  l.map fun p => if p.1 = k then (k, v) else p

/-- `createOrExtendDataset` (disk_io.cpp:506-567): the group afterwards and whether it threw.  A failing `openDataSet`
is taken for an absent dataset; creating it then fails because the name is taken (disk_io.cpp:524-529, 557-564). -/
def extendDataset (fault : Option DFault) (name : Name) (data : List F64) (g : Group) : Group × Bool :=
  if data = [] then (g, false)
  else match g.lookup name with
    | some ds =>
      if fault = some .open then (g, true)
      else if fault = some .resize ∨ ds.extendible = false then (g, true)
      else if fault = some .write then
        (setKey name ⟨ds.data ++ List.replicate data.length (.fin 0), true⟩ g, true)
      else (setKey name ⟨ds.data ++ data, true⟩ g, false)
    | none =>
      if fault = some .resize then (g, true)
      else if fault = some .write then (g ++ [(name, ⟨List.replicate data.length (.fin 0), true⟩)], true)
      else (g ++ [(name, ⟨data, true⟩)], false)

/-- The sequence of calls for the columns (disk_io.cpp:611-617, 660-664); the first exception ends it.  `faults k` is the
failure of the call for column `k`. -/
def extendColumns (faults : Nat → Option DFault) : Nat → List (Name × List F64) → Group → Group × Bool
  | _, [], g => (g, false)
  | k, (name, data) :: cols, g => match extendDataset (faults k) name data g with
    | (g', true) => (g', true)
    | (g', false) => extendColumns faults (k + 1) cols g'

/-- Where `openGroup` or `createGroup` fails. -/
inductive GFault where
  | open
  | create
  deriving DecidableEq

/-- `openGroup`, on an exception `createGroup` (disk_io.cpp:582-587, 639-644).  Creating a group that is there throws. -/
def openOrCreate (fault : Option GFault) (name : Name) (f : H5) : Option H5 := match f.lookup name with
  | some _ => if fault = some .open then none else some f
  | none => if fault = some .create then none else some (f ++ [(name, [])])

/-- One append (disk_io.cpp:575-624, 632-668) of already computed columns: the file and whether an exception was
raised inside the sequence of column calls, or `none` when the group could not be had. -/
def appendColumns (gf : Option GFault) (faults : Nat → Option DFault) (group : Name) (cols : List (Name × List F64))
    (f : H5) : Option (H5 × Bool) := match openOrCreate gf group f with
  | none => none
  | some f' =>
    let r := extendColumns faults 0 cols ((f'.lookup group).getD [])
    some (setKey group r.1 f', r.2)

/-- Names and getters of the hit datasets (disk_io.cpp:599-617); `none` when `m_tof` is indeterminate. -/
def hitColumns : List (Name × (Hit → Option F64)) :=
  [(['x'], fun h => some (F64.ofInt h.x)), (['y'], fun h => some (F64.ofInt h.y)),
   ("tot_ns".toList, fun h => some h.totNs), ("toa_ns".toList, fun h => some h.toaNs),
   ("ftoa_ns".toList, fun h => some h.ftoaNs), ("tof_ns".toList, Hit.tofNs),
   ("spidertime_ns".toList, fun h => some h.spidertimeNs)]

/-- Names and getters of the neutron datasets (disk_io.cpp:652-664). -/
def neutronColumns : List (Name × (Neutron → Option F64)) :=
  [(['x'], fun n => some n.x), (['y'], fun n => some n.y), ("tof_ns".toList, fun n => some n.tofNs),
   ("tot_ns".toList, fun n => some n.totNs), ("nHits".toList, fun n => some (F64.ofInt n.nHits))]

/-- The values of all columns; an indeterminate value is undefined behaviour. -/
def columnData {α : Type} (cols : List (Name × (α → Option F64))) (xs : List α) : Res (List (Name × List F64)) :=
  match cols.mapM (fun c => (xs.mapM c.2).map fun d => (c.1, d)) with
  | some r => .ok r
  | none => .ub .indeterminate

/-- `appendHitsToHDF5Extendible` (disk_io.cpp:575-624): exceptions of the column calls are logged and dropped, those of
`createGroup` are not caught. -/
def appendHits (gf : Option GFault) (faults : Nat → Option DFault) (hits : List Hit) (f : H5) : Res H5 :=
  if hits = [] then .ok f
  else (columnData hitColumns hits).bind fun cols =>
    match appendColumns gf faults "hits".toList cols f with
    | none => .throws "H5"
    | some (f', _) => .ok f'

/-- `appendNeutronsToHDF5Extendible` (disk_io.cpp:632-668), with the file as it is left when an exception escapes. -/
def appendNeutrons (gf : Option GFault) (faults : Nat → Option DFault) (ns : List Neutron) (f : H5) : Res (H5 × Bool) :=
  if ns = [] then .ok (f, false)
  else (columnData neutronColumns ns).bind fun cols =>
    match appendColumns gf faults "neutrons".toList cols f with
    | none => .ok (f, true)
    | some r => .ok r

/-! ## Saving to named files -/

/-- A file of the file system. -/
inductive FsFile where
  | h5 (f : H5)
  | other
  deriving DecidableEq

abbrev Fs := Path → Option FsFile

/-- Loop of `generateGroupName` (disk_io.cpp:192-198), `counter` being an `int`: after the last value the increment
overflows. -/
def groupNameGo (used : List Name) (base : Name) : Nat → Nat → Name → Res Name
  | fuel, counter, name =>
    if name ∈ used then match fuel with
      | 0 => .ub .signedOverflow
      | fuel + 1 => groupNameGo used base fuel (counter + 1) (base ++ '_' :: Nat.toDigits 10 counter)
    else .ok name

/-- `generateGroupName` (disk_io.cpp:191-199). -/
def groupName (f : H5) (base : Name) : Res Name := groupNameGo (f.map Prod.fst) base (2 ^ 31 - 2) 1 base

/-- `saveOrAppendToHDF5` (disk_io.cpp:214-252).  Library calls succeed, except that a file which is not HDF5 cannot be
opened for appending. -/
def saveOrAppend (path : Path) (base : Name) (cols : List (Name × List F64)) (rows : Nat) (append : Bool) (fs : Fs) :
    Res Fs :=
  if rows = 0 then .ok fs
  else
    let ds : Group := cols.map fun c => (c.1, ⟨c.2, false⟩)
    if (fs path).isNone || !append then .ok (Function.update fs path (some (.h5 [(base, ds)])))
    else match fs path with
      | some (.h5 f) => (groupName f base).bind fun n => .ok (Function.update fs path (some (.h5 (f ++ [(n, ds)]))))
      | _ => .throws "H5"

/-- `std::filesystem::path::filename` and what is before it. -/
def splitDir (p : Path) : Path × Path :=
  ((p.reverse.dropWhile (· ≠ '/')).reverse, (p.reverse.takeWhile (· ≠ '/')).reverse)

/-- `stem` and `extension` of a file name: the extension starts at the last dot unless this is the first character or
the name is `..`. -/
def splitExt (n : Path) : Path × Path :=
  let ext := (n.reverse.takeWhile (· ≠ '.')).reverse
  let stem := (n.reverse.dropWhile (· ≠ '.')).reverse.dropLast
  if '.' ∉ n ∨ stem = [] ∨ n = ['.', '.'] then (n, []) else (stem, '.' :: ext)

/-- `std::setfill('0') << std::setw(6)`. -/
def pad6 (n : Nat) : List Char := List.replicate (6 - (Nat.toDigits 10 n).length) '0' ++ Nat.toDigits 10 n

/-- `generateFileNameWithMicroTimestamp` (disk_io.cpp:129-155); `micros` is the microsecond part of the current second.
The directory part is kept with its slash: `parent_path / name` gives the same file for directory parts without
repeated slashes. -/
def stampName (p : Path) (micros : Nat) : Path :=
  let (dir, file) := splitDir p
  let (stem, ext) := splitExt file
  dir ++ stem ++ '_' :: (pad6 micros ++ (if ext = [] then ['.', 'h', '5'] else ext))

/-- `saveHitsToHDF5` / `saveNeutronToHDF5` (disk_io.cpp:294-304, 380-391). -/
def saveNew (micros : Nat) (path : Path) (base : Name) (cols : List (Name × List F64)) (rows : Nat) (fs : Fs) : Res Fs :=
  saveOrAppend (if (fs path).isSome then stampName path micros else path) base cols rows false fs

end Verif
