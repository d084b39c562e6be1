import Verif.Spec.Text

/-!
# Reading descriptions

A reader for lines such as `Hit: x=1, y=2`: fields between commas, each of a known name and a value.
-/

namespace Verif.Spec

/-- What follows the given beginning. -/
def after? (p t : List Char) : Option (List Char) := if t.take p.length = p then some (t.drop p.length) else none

/-- What comes before the given end. -/
def before? (p t : List Char) : Option (List Char) := (after? p.reverse t.reverse).map List.reverse

/-- The values of fields with the given beginnings, one for each. -/
def values? : List String → List (List Char) → Option (List (List Char))
  | [], [] => some []
  | n :: ns, f :: fs => match after? n.toList f, values? ns fs with
    | some v, some vs => some (v :: vs)
    | _, _ => none
  | _, _ => none

/-- What the description of a hit says: position, time over threshold, arrival, fine arrival, time of flight, spider time. -/
def readHitText? (t : List Char) : Option (Int × Int × Int × Int × Int × Nat × Nat) :=
  match values? ["Hit: x=", " y=", " tot=", " toa=", " ftoa=", " tof=", " spidertime="] (fields ',' t) with
  | some [a, b, c, d, e, f, g] => match readInt? a, readInt? b, readInt? c, readInt? d, readInt? e, readNat? f, readNat? g with
    | some a, some b, some c, some d, some e, some f, some g => some (a, b, c, d, e, f, g)
    | _, _, _, _, _, _, _ => none
  | _ => none

/-- What the description of a neutron says: position, time of flight, number of hits. -/
def readNeutronText? (names : List String) (t : List Char) : Option (ℚ × ℚ × ℚ × Int) :=
  match values? names (fields ',' t) with
  | some [a, b, c, d] => match readDecimal? a, readDecimal? b, readDecimal? c, readInt? d with
    | some a, some b, some c, some d => some (a, b, c, d)
    | _, _, _, _ => none
  | _ => none

/-- Bins as described. -/
inductive ShownBins where
  | uniform (bins : Int) (max : ℚ)
  | custom (bins : Nat)
  | unset
  deriving DecidableEq

/-- Settings as described. -/
structure Shown where
  radius : ℚ
  size : Nat
  range : Nat
  bins : ShownBins
  sr : ℚ
  deriving DecidableEq

/-- Number of bins of the description. -/
def ShownBins.count : ShownBins → Int
  | .uniform n _ => n
  | .custom n => n
  | .unset => 0

/-- What the settings of the clustering say. -/
def readAbs? (fs : List (List Char)) : Option (ℚ × Nat × Nat) :=
  match values? ["ABS: radius=", " min_cluster_size=", " spider_time_range="] fs with
  | some [a, b, c] => match readDecimal? a, readNat? b, readNat? c with
    | some a, some b, some c => some (a, b, c)
    | _, _, _ => none
  | _ => none

/-- What the description of the bins says. -/
def readBins? : List (List Char) → Option ShownBins
  | [a] => if a = " TOF binning not set".toList then some .unset
    else match (after? " Custom TOF binning with ".toList a).bind (before? " bins".toList) with
      | some n => (readNat? n).map .custom
      | none => none
  | [a, b] => match (after? " TOF bins=".toList a).bind readInt?, ((after? " TOF max=".toList b).bind (before? " ms".toList)).bind readDecimal? with
    | some n, some m => some (.uniform n m)
    | _, _ => none
  | _ => none

/-- What the description of a configuration says. -/
def readSettings? (t : List Char) : Option Shown :=
  let fs := fields ',' t
  match readAbs? (fs.take 3), readBins? ((fs.drop 3).dropLast), (fs.getLast?.bind (after? " Super Resolution=".toList)).bind readDecimal? with
  | some (r, m, s), some b, some q => some ⟨r, m, s, b, q⟩
  | _, _, _ => none

end Verif.Spec
