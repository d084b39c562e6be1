import Verif.Model.Abs
import Verif.Model.Image

/-!
# What `-ffast-math` lets the compiler compute

sophiread/CMakeLists.txt:62-65 compiles everything with `-march=native -ffast-math`.  The compiler may then add in another order
(for instance in several partial sums side by side), use a fused multiply-add, take a constant factor out of a sum, multiply by a
reciprocal instead of dividing, bring a term to the other side of a comparison, and take for granted that no value is infinite or
NaN.  For the places of the code that compute with `double`, this file lists the values that can come out.  Re-ordering that
introduces terms which are not in the source (say, adding and subtracting the same number) is not included, nor does any compiler
do it.
-/

namespace Verif

/-- Fused multiply-add: one rounding. -/
def F64.fma : F64 → F64 → F64 → F64
  | .fin a, .fin b, .fin c => F64.ofRat (a * b + c)
  | a, b, c => F64.add (F64.mul a b) c

/-- The values that may be computed for the sum of one product per element, where `ways` lists how each product may be formed: in
any order and any grouping, starting from any number of zeros, with or without fused multiply-add. -/
inductive FastSum {α : Type} (ways : α → List (F64 × F64)) : List α → F64 → Prop
  | zero : FastSum ways [] (F64.ofRat 0)
  | one {a p} : p ∈ ways a → FastSum ways [a] (F64.mul p.1 p.2)
  | add {l m k u v} : FastSum ways l u → FastSum ways m v → k.Perm (l ++ m) → FastSum ways k (F64.add u v)
  | fma {a p l k u} : p ∈ ways a → FastSum ways l u → k.Perm (a :: l) → FastSum ways k (F64.fma p.1 p.2 u)

/-- A quotient, or the product with the reciprocal. -/
inductive FastQuotient (a b : F64) : F64 → Prop
  | div : FastQuotient a b (F64.div a b)
  | inv : FastQuotient a b (F64.mul a (F64.div (F64.ofRat 1) b))

/-! ## `Centroid::fit` (FastSophiread/src/centroid.cpp:20-60, weighted) -/

/-- `m_super_resolution_factor * hit_x * hit_tot` (centroid.cpp:37-38). -/
def weightWays (sr : F64) (c : Hit → Int) (h : Hit) : List (F64 × F64) :=
  [(F64.mul sr (F64.ofInt (c h)), F64.ofInt h.tot), (sr, F64.mul (F64.ofInt (c h)) (F64.ofInt h.tot)),
   (F64.mul sr (F64.ofInt h.tot), F64.ofInt (c h))]

/-- The same without the factor. -/
def plainWays (c : Hit → Int) (h : Hit) : List (F64 × F64) := [(F64.ofInt (c h), F64.ofInt h.tot)]

/-- A number by itself. -/
def selfWays (c : Hit → Int) (h : Hit) : List (F64 × F64) := [(F64.ofInt (c h), F64.ofRat 1)]

/-- The time of flight of a hit; 0 stands for one that was never set. -/
def tofTicks (h : Hit) : Int := (h.tof.map fun t => (t.toNat : Int)).getD 0

/-- A coordinate of the event (centroid.cpp:37-44): the factor inside the sum, before or after the division, or together with the
reciprocal. -/
inductive FastPosition (sr : F64) (c : Hit → Int) (M : List Hit) : F64 → Prop
  | inside {s t v} : FastSum (weightWays sr c) M s → FastSum (selfWays Hit.tot) M t → FastQuotient s t v → FastPosition sr c M v
  | before {s t v} : FastSum (plainWays c) M s → FastSum (selfWays Hit.tot) M t → FastQuotient (F64.mul sr s) t v →
      FastPosition sr c M v
  | after {s t v} : FastSum (plainWays c) M s → FastSum (selfWays Hit.tot) M t → FastQuotient s t v → FastPosition sr c M (F64.mul sr v)
  | factor {s t v} : FastSum (plainWays c) M s → FastSum (selfWays Hit.tot) M t → FastQuotient sr t v → FastPosition sr c M (F64.mul s v)

/-- An event that may come out of `Centroid::fit` (centroid.cpp:20-60) for at least one hit. -/
structure FastCentroid (sr : F64) (M : List Hit) (e : Neutron) : Prop where
  x : FastPosition sr Hit.x M e.x
  y : FastPosition sr Hit.y M e.y
  tot : FastSum (selfWays Hit.tot) M e.tot
  tof : ∃ f, FastSum (selfWays tofTicks) M f ∧ FastQuotient f (F64.ofInt M.length) e.tof
  nHits : e.nHits = M.length

/-! ## `ABS::fit` (FastSophiread/src/abs.cpp:24-118) -/

/-- `a >= b - f` for integers `a` and `b` (abs.cpp:65, 67), with the terms on any side. -/
inductive FastAbove (f : F64) (a b : Int) : Bool → Prop
  | written : FastAbove f a b (F64.le (F64.sub (F64.ofInt b) f) (F64.ofInt a))
  | left : FastAbove f a b (F64.le (F64.ofInt b) (F64.add (F64.ofInt a) f))
  | diff : FastAbove f a b (F64.le (F64.sub (F64.ofInt b) (F64.ofInt a)) f)
  | neg : FastAbove f a b (F64.le (F64.neg f) (F64.sub (F64.ofInt a) (F64.ofInt b)))

/-- `a <= b + f` (abs.cpp:66, 68). -/
inductive FastBelow (f : F64) (a b : Int) : Bool → Prop
  | written : FastBelow f a b (F64.le (F64.ofInt a) (F64.add (F64.ofInt b) f))
  | left : FastBelow f a b (F64.le (F64.sub (F64.ofInt a) f) (F64.ofInt b))
  | diff : FastBelow f a b (F64.le (F64.sub (F64.ofInt a) (F64.ofInt b)) f)
  | neg : FastBelow f a b (F64.le (F64.neg f) (F64.sub (F64.ofInt b) (F64.ofInt a)))

/-- `std::abs(hit.getSPIDERTIME_ns() - cluster.spidertime) <= spiderTimeRange_` (abs.cpp:63-64), with or without fused
multiply-add. -/
inductive FastTimely (range : Nat) (h : Hit) (t : Nat) : Bool → Prop
  | written : FastTimely range h t (F64.le (F64.abs (F64.sub h.spidertimeNs (F64.ofInt t))) (F64.ofInt range))
  | fused : FastTimely range h t (F64.le (F64.abs (F64.fma (F64.ofInt h.spidertime.toNat) (F64.ofRat 25) (F64.neg (F64.ofInt t))))
      (F64.ofInt range))

/-- Whether a cluster takes a hit (abs.cpp:63-68): each of the five conditions in any of its forms. -/
def FastAccepts (p : AbsParams) (h : Hit) (s : Slot) (b : Bool) : Prop :=
  ∃ b0 b1 b2 b3 b4, FastTimely p.range h s.time b0 ∧ FastAbove p.feature h.x s.xmin b1 ∧ FastBelow p.feature h.x s.xmax b2 ∧
    FastAbove p.feature h.y s.ymin b3 ∧ FastBelow p.feature h.y s.ymax b4 ∧ b = (b0 && (b1 && b2 && b3 && b4))

/-- `placeIn` with another decision (abs.cpp:46-82). -/
def placeInBy (acc : Hit → Slot → Bool) (h : Hit) : List Slot → Res (Option (List Slot × Int))
  | [] => .ok none
  | s :: ss =>
    if s.size = 0 then
      match openSlot s.label h with
      | .ok s' => .ok (some (s' :: ss, s.label))
      | .throws e => .throws e
      | .ub u => .ub u
    else if acc h s then .ok (some (s.grow h :: ss, s.label))
    else
      match placeInBy acc h ss with
      | .ok none => .ok none
      | .ok (some r) => .ok (some (s :: r.1, r.2))
      | .throws e => .throws e
      | .ub u => .ub u

/-- `fitStep` with another decision (abs.cpp:41-110). -/
def fitStepBy (acc : Hit → Slot → Bool) (i : Nat) (h : Hit) (st : FitState) : Res FitState :=
  match placeInBy acc h st.slots with
  | .ok (some r) => .ok { st with slots := r.1, labels := st.labels.set i r.2 }
  | .ok none =>
    match openSlot st.maxLabel h with
    | .ok s => .ok { slots := st.slots.set (minIndex st.slots) s, maxLabel := st.maxLabel + 1,
                     labels := st.labels.set i st.maxLabel }
    | .throws e => .throws e
    | .ub u => .ub u
  | .throws e => .throws e
  | .ub u => .ub u

/-- `fitLoop` with other decisions, which need not be the same in all rounds (abs.cpp:40-111). -/
def fitLoopBy (acc : Nat → Hit → Slot → Bool) : Nat → List Hit → FitState → Res FitState
  | _, [], st => .ok st
  | i, h :: hs, st => do
    let st' ← fitStepBy (acc i) i h st
    fitLoopBy acc (i + 1) hs st'

/-! ## Time bins (SophireadCLI/include/tof_binning.h, src/sophiread_core.cpp) -/

/-- `tof * 25` ns `/ 1e9` (hit.h:77, sophiread_core.cpp:284, 426), for `t` ticks. -/
inductive FastSeconds (t : F64) : F64 → Prop
  | plain {v} : FastQuotient (F64.mul t (F64.ofRat 25)) (F64.ofRat 1000000000) v → FastSeconds t v
  | factor {v} : FastQuotient (F64.ofRat 25) (F64.ofRat 1000000000) v → FastSeconds t (F64.mul t v)

/-- An edge `max * i / bins` (tof_binning.h:39). -/
inductive FastEdge (max : F64) (bins : Int) (i : Nat) : F64 → Prop
  | plain {v} : FastQuotient (F64.mul max (F64.ofInt i)) (F64.ofInt bins) v → FastEdge max bins i v
  | part {v} : FastQuotient (F64.ofInt i) (F64.ofInt bins) v → FastEdge max bins i (F64.mul max v)
  | step {v} : FastQuotient max (F64.ofInt bins) v → FastEdge max bins i (F64.mul v (F64.ofInt i))

/-! ## Checks for infinities and NaN -/

/-- `placeEntry` (sophiread_core.cpp:269-323) with `finite` in place of the tests `std::isnan`, `std::isinf` (lines 279, 308-309):
the compiler may put `true`. -/
def placeEntryBy (finite : F64 → Bool) (sr : F64) (edges : List F64) (n : Nat) (d : Int) (e : Entry) : Res (Option (Nat × Nat × Nat)) :=
  if F64.lt e.tof (.fin 0) || !finite e.tof then .ok none
  else
    let s := F64.div e.tof (F64.ofRat 1000000000)
    match edges.head?, edges.getLast? with
    | some front, some back =>
      if F64.lt s front || F64.le back s then .ok none
      else do
        let it ← lowerBound edges s
        if it = 0 then .ok none
        else if n ≤ it - 1 then .ok none
        else if !finite e.x || !finite e.y then .ok none
        else do
          let x ← toPixel sr e.x
          let y ← toPixel sr e.y
          if 0 ≤ x ∧ x < d ∧ 0 ≤ y ∧ y < d then .ok (some (it - 1, y.toNat, x.toNat)) else .ok none
    | _, _ => .ub .oobRead

end Verif
