import Verif.Model.Peak

/-!
# Adaptive box search (FastSophiread/src/abs.cpp, include/abs.h)
-/

namespace Verif

/-- `struct Cluster` (abs.h:23-27).  The `int` members `label` and `size` are unbounded here: they stay below
2^31 as long as a batch has fewer than 2^31 hits. -/
structure Slot where
  xmin : Int
  ymin : Int
  xmax : Int
  ymax : Int
  time : Nat
  label : Int
  size : Nat
  deriving DecidableEq, Repr

/-- `numClusters_` (abs.h:53). -/
def numClusters : Nat := 8

/-- Constructor arguments (abs.h:35-39). -/
structure AbsParams where
  feature : F64
  minSize : Nat
  range : Nat
  deriving DecidableEq, Repr

/-- The conditions of case 1 (abs.cpp:63-68).  `cluster.spidertime` and `spiderTimeRange_` are converted to
`double` for the subtraction and the comparison. -/
def Slot.accepts (p : AbsParams) (h : Hit) (s : Slot) : Bool :=
  F64.le (F64.abs (F64.sub h.spidertimeNs (F64.ofInt s.time))) (F64.ofInt p.range) &&
  (F64.le (F64.sub (F64.ofInt s.xmin) p.feature) (F64.ofInt h.x) &&
   F64.le (F64.ofInt h.x) (F64.add (F64.ofInt s.xmax) p.feature) &&
   F64.le (F64.sub (F64.ofInt s.ymin) p.feature) (F64.ofInt h.y) &&
   F64.le (F64.ofInt h.y) (F64.add (F64.ofInt s.ymax) p.feature))

/-- A slot newly opened for a hit (abs.cpp:49-54, 97-103): `cluster.spidertime = hit.getSPIDERTIME_ns()` converts
a `double` to `unsigned long long`. -/
def openSlot (label : Int) (h : Hit) : Res Slot :=
  match h.spidertimeNs.toU64? with
  | none => .ub .floatToInt
  | some t => .ok { xmin := h.x, ymin := h.y, xmax := h.x, ymax := h.y, time := t, label := label, size := 1 }

/-- A slot joined by a hit (abs.cpp:69-73). -/
def Slot.grow (h : Hit) (s : Slot) : Slot :=
  { s with
    size := s.size + 1
    xmin := min s.xmin h.x, xmax := max s.xmax h.x, ymin := min s.ymin h.y, ymax := max s.ymax h.y }

/-- The loop over the clusters (abs.cpp:46-82): the new clusters and the label, or `none` if no cluster took the
hit. -/
def placeIn (p : AbsParams) (h : Hit) : List Slot → Res (Option (List Slot × Int))
  | [] => .ok none
  | s :: ss =>
    if s.size = 0 then
      match openSlot s.label h with
      | .ok s' => .ok (some (s' :: ss, s.label))
      | .throws e => .throws e
      | .ub u => .ub u
    else if s.accepts p h then .ok (some (s.grow h :: ss, s.label))
    else
      match placeIn p h ss with
      | .ok none => .ok none
      | .ok (some r) => .ok (some (s :: r.1, r.2))
      | .throws e => .throws e
      | .ub u => .ub u

/-- The search for the smallest time among the clusters from index `j` on (abs.cpp:88-93). -/
def minLoop : List Slot → Nat → Nat → Nat → Nat
  | [], _, _, best => best
  | s :: ss, j, t, best =>
    if 0 < s.size ∧ s.time < t then minLoop ss (j + 1) s.time j else minLoop ss (j + 1) t best

/-- `min_spidertime_index` (abs.cpp:86-93). -/
def minIndex : List Slot → Nat
  | [] => 0
  | s :: ss => minLoop ss 1 s.time 0

/-- Variables of `ABS::fit`: the clusters, `max_label` and `clusterLabels_`. -/
structure FitState where
  slots : List Slot
  maxLabel : Int
  labels : List Int
  deriving DecidableEq, Repr

/-- One iteration of the loop over the hits (abs.cpp:41-110). -/
def fitStep (p : AbsParams) (i : Nat) (h : Hit) (st : FitState) : Res FitState :=
  match placeIn p h st.slots with
  | .ok (some r) => .ok { st with slots := r.1, labels := st.labels.set i r.2 }
  | .ok none =>
    match openSlot st.maxLabel h with
    | .ok s => .ok { slots := st.slots.set (minIndex st.slots) s, maxLabel := st.maxLabel + 1,
                     labels := st.labels.set i st.maxLabel }
    | .throws e => .throws e
    | .ub u => .ub u
  | .throws e => .throws e
  | .ub u => .ub u

/-- The loop over the hits from index `i` on (abs.cpp:40-111). -/
def fitLoop (p : AbsParams) : Nat → List Hit → FitState → Res FitState
  | _, [], st => .ok st
  | i, h :: hs, st => do
    let st' ← fitStep p i h st
    fitLoop p (i + 1) hs st'

/-- The `n` clusters before the first hit (abs.cpp:30-33). -/
def initSlots (n : Nat) : List Slot := (List.range n).map fun (i : Nat) => ⟨0, 0, 0, 0, 0, (i : Int), 0⟩

/-- `clusterIndices_[clusterLabels_[i]].push_back(i)` for all `i` from `i` on (abs.cpp:115-117). -/
def indexLoop : Nat → List Int → List (List Nat) → Res (List (List Nat))
  | _, [], acc => .ok acc
  | i, l :: ls, acc =>
    if 0 ≤ l ∧ l.toNat < acc.length then
      indexLoop (i + 1) ls (acc.set l.toNat (acc.getD l.toNat [] ++ [i]))
    else .ub .oobWrite

/-- `class ABS` (abs.h:33-57); `m_alg` is recreated by every `get_events` and never read before. -/
structure AbsObj where
  params : AbsParams
  method : String
  labels : List Int
  indices : List (List Nat)
  deriving DecidableEq, Repr

namespace AbsObj

/-- A new object (abs.h:35-39, 49). -/
def new (p : AbsParams) : AbsObj := ⟨p, "centroid", [], []⟩

/-- `set_method` (abs.h:41). -/
def setMethod (o : AbsObj) (m : String) : AbsObj := { o with method := m }

/-- `reset` (abs.h:42): only the labels are cleared. -/
def reset (o : AbsObj) : AbsObj := { o with labels := [] }

/-- `vector::resize(n, -1)` after `clear` (abs.cpp:26-27). -/
def resized (old : List Int) (n : Nat) : List Int :=
  let cleared := old.take 0
  cleared ++ List.replicate (n - cleared.length) (-1)

/-- `ABS::fit` (abs.cpp:24-118) with `n` open clusters.  The number is 8 here and 4 in the legacy library, whose `fit`
(SophireadLib/src/abs.cpp:16-110) has the same text. -/
def fitWith (n : Nat) (o : AbsObj) (data : List Hit) : Res AbsObj := do
  let st ← fitLoop o.params 0 data
    { slots := initSlots n, maxLabel := (n : Int), labels := resized o.labels data.length }
  let idx ← indexLoop 0 st.labels ((o.indices.take 0) ++ List.replicate (st.maxLabel + 1).toNat [])
  .ok { o with labels := st.labels, indices := idx }

/-- `ABS::fit` (abs.cpp:24-118). -/
def fit (o : AbsObj) (data : List Hit) : Res AbsObj := fitWith numClusters o data

/-- The hits of one cluster (abs.cpp:164-166). -/
def gather (data : List Hit) : List Nat → Res (List Hit)
  | [] => .ok []
  | i :: is =>
    match data[i]? with
    | none => .ub .oobRead
    | some h => do
      let hs ← gather data is
      .ok (h :: hs)

/-- The peak-fitting algorithms (abs.cpp:147-154); `none` is an unsupported method. -/
def algorithm (solve : List GaussRow → F64 × F64) (method : String) : Option (List Hit → Res Neutron) :=
  if method = "centroid" then some (centroidFit true (F64.ofRat 1))
  else if method = "fast_gaussian" then some (fastGaussianFit solve (F64.ofRat 1))
  else none

/-- `event.getX() >= 0.0 && event.getY() >= 0.0` (abs.cpp:175). -/
def keepEvent (n : Neutron) : Bool := F64.le (F64.ofRat 0) n.x && F64.le (F64.ofRat 0) n.y

/-- The loop over the labels from `label` on, `fuel` of them (abs.cpp:160-179). -/
def eventLoop (o : AbsObj) (alg : List Hit → Res Neutron) (data : List Hit) : Nat → Nat → Res (List Neutron)
  | 0, _ => .ok []
  | fuel + 1, label =>
    match o.indices[label]? with
    | none => .ub .oobRead
    | some is => do
      let cluster ← gather data is
      if cluster.length < o.params.minSize then eventLoop o alg data fuel (label + 1)
      else do
        let e ← alg cluster
        let rest ← eventLoop o alg data fuel (label + 1)
        .ok (if keepEvent e then e :: rest else rest)

/-- `*std::max_element` of a non-empty vector (abs.cpp:141-143). -/
def maxLabelOf : List Int → Int
  | [] => -1
  | l :: ls => ls.foldl max l

/-- `ABS::get_events` (abs.cpp:126-182).  The object is not changed (apart from `m_alg`). -/
def getEvents (solve : List GaussRow → F64 × F64) (o : AbsObj) (data : List Hit) : Res (List Neutron) :=
  if o.labels.length ≠ data.length then .throws "ERROR: cluster labels size does not match data!"
  else if o.labels = [] then .ok []
  else
    match algorithm solve o.method with
    | none => .throws "ERROR: peak fitting method not supported!"
    | some alg => eventLoop o alg data (maxLabelOf o.labels + 1).toNat 0

/-- The public calls on one object (abs.h:40-46).  A caller may catch what `get_events` throws. -/
inductive Call where
  | fit (data : List Hit)
  | reset
  | setMethod (m : String)
  | getEvents (data : List Hit)

/-- One call: the object afterwards.  An exception of `get_events` leaves the object as it was. -/
def call (solve : List GaussRow → F64 × F64) (o : AbsObj) : Call → Res AbsObj
  | .fit data => o.fit data
  | .reset => .ok o.reset
  | .setMethod m => .ok (o.setMethod m)
  | .getEvents data =>
    match o.getEvents solve data with
    | .ok _ => .ok o
    | .throws _ => .ok o
    | .ub u => .ub u

/-- A sequence of calls. -/
def calls (solve : List GaussRow → F64 × F64) : AbsObj → List Call → Res AbsObj
  | o, [] => .ok o
  | o, c :: cs => do
    let o' ← call solve o c
    calls solve o' cs

end AbsObj
end Verif
