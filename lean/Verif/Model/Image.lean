import Verif.Model.Parallel

/-!
# Time-of-flight images (SophireadCLI/include/tof_binning.h, SophireadCLI/src/sophiread_core.cpp:226-485, 596-609)
-/

namespace Verif

/-- `struct TOFBinning` (tof_binning.h:16-19). -/
structure TofBinning where
  numBins : Option Int
  tofMax : Option F64
  custom : List F64
  deriving DecidableEq

/-- Default constructor (tof_binning.h:22). -/
def TofBinning.default : TofBinning := ⟨some 1500, some (F64.ofRat (1 / 60)), []⟩

/-- `edges[i] = max * i / bins` (tof_binning.h:40): product, then quotient, both rounded. -/
def edgeAt (max : F64) (bins : Int) (i : Nat) : F64 := F64.div (F64.mul max (F64.ofInt i)) (F64.ofInt bins)

/-- `getBinEdges` (tof_binning.h:31-43).  `bins` is an `int`: `bins + 1` overflows at the largest value, and a negative
size makes the vector constructor throw. -/
def TofBinning.getBinEdges (t : TofBinning) : Res (List F64) :=
  if t.custom ≠ [] then .ok t.custom
  else
    let bins := t.numBins.getD 1500
    let max := t.tofMax.getD (F64.ofRat (1 / 60))
    if bins = 2 ^ 31 - 1 then .ub .signedOverflow
    else if bins + 1 < 0 then .throws "cannot create std::vector larger than max_size()"
    else .ok ((List.range (bins + 1).toNat).map (edgeAt max bins))

/-- `IPositionTOF` (iposition_tof.h:16-18). -/
structure Entry where
  x : F64
  y : F64
  tof : F64
  deriving DecidableEq

/-- A hit as an entry (hit.h:94-96); reading an `m_tof` that was never written is undefined. -/
def Hit.entry (h : Hit) : Res Entry := match h.tofNs with
  | some t => .ok ⟨F64.ofInt h.x, F64.ofInt h.y, t⟩
  | none => .ub .indeterminate

/-- A neutron as an entry (neutron.h:40-42). -/
def Neutron.entry (n : Neutron) : Entry := ⟨n.x, n.y, n.tofNs⟩

/-- The values `iGetX`, … of the entries of a batch (sophiread_core.cpp:251-267, 391-402).  Every mode but `"hit"`
takes the neutrons.  The C++ collects pointers and calls `iGetTOF_ns` as it goes along the list; reading all of them
first differs only in which undefined read comes first. -/
def entriesOf (mode : String) (b : EventBatch) : Res (List Entry) :=
  if mode = "hit" then b.batch.hits.mapM Hit.entry else .ok (b.neutrons.map Neutron.entry)

/-- `std::lower_bound` (libstdc++ `__lower_bound`): `len` elements from `first`. -/
def lowerBoundGo (edges : List F64) (v : F64) : Nat → Nat → Nat → Res Nat
  | 0, first, _ => .ok first
  | fuel + 1, first, len =>
    if len = 0 then .ok first
    else match edges[first + len / 2]? with
      | none => .ub .oobRead
      | some m =>
        if F64.lt m v then lowerBoundGo edges v fuel (first + len / 2 + 1) (len - len / 2 - 1)
        else lowerBoundGo edges v fuel first (len / 2)

/-- `std::lower_bound(edges.begin(), edges.end(), v) - edges.begin()`; `len` halves in every step, so its length is
enough fuel (`lowerBound_le` and `lowerBound_sorted`). -/
def lowerBound (edges : List F64) (v : F64) : Res Nat := lowerBoundGo edges v edges.length 0 edges.length

/-- Stack of images: `tof_images[bin][y][x]`. -/
abbrev Stack := List (List (List U32))

/-- `static_cast<int>(517 * super_resolution)` (sophiread_core.cpp:228-229, 248-249, 368-369). -/
def dimOf (sr : F64) : Res Int := match (F64.mul (F64.ofRat 517) sr).toI32? with
  | some d => .ok d
  | none => .ub .floatToInt

/-- Zeroed images (sophiread_core.cpp:230-234, 379-381); a negative size turns into a huge `size_t`. -/
def zeroStack (n : Nat) (d : Int) : Res Stack :=
  if n = 0 then .ok []
  else if d < 0 then .throws "vector::_M_default_append"
  else .ok (List.replicate n (List.replicate d.toNat (List.replicate d.toNat 0#32)))

/-- `initializeTOFImages` (sophiread_core.cpp:226-236).  `tof_bin_edges.size() - 1` wraps for no edges. -/
def initImages (sr : F64) (edges : List F64) : Res Stack := do
  let d ← dimOf sr
  if edges = [] then .throws "cannot create std::vector larger than max_size()"
  else zeroStack (edges.length - 1) d

/-- `tof_images[bin][y][x]++`. -/
def bump (im : Stack) (bin y x : Nat) : Res Stack := match im[bin]? with
  | none => .ub .oobWrite
  | some img => match img[y]? with
    | none => .ub .oobWrite
    | some row => match row[x]? with
      | none => .ub .oobWrite
      | some v => .ok (im.set bin (img.set y (row.set x (v + 1))))

/-- `int x = std::round(raw_x * super_resolution)` (sophiread_core.cpp:310-311, 451-452). -/
def toPixel (sr raw : F64) : Res Int := match (F64.round (F64.mul raw sr)).toI32? with
  | some k => .ok k
  | none => .ub .floatToInt

/-- Body of the loop over the entries (sophiread_core.cpp:269-323, 409-462; the two are the same up to logging):
where the entry is counted, if at all.  `n` is the number of images, `d` the dimension.  With no edges `front()` is
undefined; both callers make sure that there are two. -/
def placeEntry (sr : F64) (edges : List F64) (n : Nat) (d : Int) (e : Entry) : Res (Option (Nat × Nat × Nat)) :=
  if F64.lt e.tof (.fin 0) || !e.tof.isFinite then .ok none
  else
    let s := F64.div e.tof (F64.ofRat 1000000000)
    match edges.head?, edges.getLast? with
    | some front, some back =>
      if F64.lt s front || F64.le back s then .ok none
      else do
        let it ← lowerBound edges s
        if it = 0 then .ok none
        else if n ≤ it - 1 then .ok none
        else if !e.x.isFinite || !e.y.isFinite then .ok none
        else do
          let x ← toPixel sr e.x
          let y ← toPixel sr e.y
          if 0 ≤ x ∧ x < d ∧ 0 ≤ y ∧ y < d then .ok (some (it - 1, y.toNat, x.toNat)) else .ok none
    | _, _ => .ub .oobRead

/-- One entry. -/
def addEntry (sr : F64) (edges : List F64) (d : Int) (im : Stack) (e : Entry) : Res Stack := do
  match ← placeEntry sr edges im.length d e with
  | some (b, y, x) => bump im b y x
  | none => .ok im

/-- Loop over the entries. -/
def addEntries (sr : F64) (edges : List F64) (d : Int) : Stack → List Entry → Res Stack
  | im, [] => .ok im
  | im, e :: es => do
    let im' ← addEntry sr edges d im e
    addEntries sr edges d im' es

/-- `updateTOFImages` (sophiread_core.cpp:238-324). -/
def updateImages (sr : F64) (edges : List F64) (mode : String) (im : Stack) (b : EventBatch) : Res Stack :=
  if im = [] ∨ edges.length < 2 then .ok im
  else do
    let d ← dimOf sr
    let es ← entriesOf mode b
    addEntries sr edges d im es

/-- Several batches one after the other, as in the loop over batches (sophiread.cpp:282-300). -/
def updateAll (sr : F64) (edges : List F64) (mode : String) : Stack → List EventBatch → Res Stack
  | im, [] => .ok im
  | im, b :: bs => do
    let im' ← updateImages sr edges mode im b
    updateAll sr edges mode im' bs

/-- Loop over the batches in `timedCreateTOFImages` (sophiread_core.cpp:387-464). -/
def createLoop (sr : F64) (edges : List F64) (mode : String) (d : Int) : Stack → List EventBatch → Res Stack
  | im, [] => .ok im
  | im, b :: bs => do
    let es ← entriesOf mode b
    let im' ← addEntries sr edges d im es
    createLoop sr edges mode d im' bs

/-- `timedCreateTOFImages` (sophiread_core.cpp:346-485).  Without batches the images have no rows. -/
def createImages (sr : F64) (edges : List F64) (mode : String) (bs : List EventBatch) : Res Stack :=
  if edges = [] then .throws "cannot create std::vector larger than max_size()"
  else if edges.length < 2 then .ok []
  else if bs = [] then .ok (List.replicate (edges.length - 1) [])
  else do
    let d ← dimOf sr
    let im ← zeroStack (edges.length - 1) d
    createLoop sr edges mode d im bs

/-- `calculateSpectralCounts` (sophiread_core.cpp:596-609): 64-bit sums. -/
def spectralCounts (im : Stack) : List U64 :=
  im.map fun img => img.foldl (fun s row => s + row.foldl (fun s v => s + v.setWidth 64) 0#64) 0#64

end Verif
