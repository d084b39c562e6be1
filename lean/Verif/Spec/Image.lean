import Verif.Model.Image

/-!
# Specification vocabulary for time-of-flight images

The only parts of the model used here are the entry type, binary64 rounding `F64.ofRat`, and `List` as vector.
-/

namespace Verif.Spec

open Verif

/-- `t` lies in bin `i` of the edges: above the lower edge, up to and including the upper one. -/
def InBin (qs : List ℚ) (t : ℚ) (i : Nat) : Prop :=
  ∃ lo hi, qs[i]? = some lo ∧ qs[i + 1]? = some hi ∧ lo < t ∧ t ≤ hi

/-- `k` is the integer nearest to `q`, of two the one further from zero. -/
def Rounds (q : ℚ) (k : ℤ) : Prop := |q - k| < 1 / 2 ∨ (|q - k| = 1 / 2 ∧ |q| < |(k : ℚ)|)

/-- `k` is the pixel of the coordinate `raw` at super resolution `sr`. -/
def PixelOf (sr : ℚ) (raw : F64) (k : ℤ) : Prop := ∃ a v, raw = .fin a ∧ F64.ofRat (a * sr) = .fin v ∧ Rounds v k

/-- The entry is to be counted in bin `i` at pixel `(x, y)` of images with `d` rows and columns. -/
def Lands (sr : ℚ) (qs : List ℚ) (d : Nat) (e : Entry) (i y x : Nat) : Prop :=
  ∃ t s, e.tof = .fin t ∧ 0 ≤ t ∧ F64.ofRat (t / 1000000000) = .fin s ∧ InBin qs s i ∧
    (∀ last ∈ qs.getLast?, s < last) ∧ PixelOf sr e.x x ∧ PixelOf sr e.y y ∧ x < d ∧ y < d

/-- Number of rows and columns. -/
def side (sr : ℚ) : Nat := ⌊rndQ (517 * sr)⌋.toNat

/-- The entry of a hit that has a time of flight: coordinates and time in nanoseconds as doubles. -/
def hitEntry (h : Hit) : Option Entry :=
  h.tof.map fun t => ⟨F64.ofInt h.x, F64.ofInt h.y, .fin (25 * t.toNat)⟩

/-- All entries of a list of batches, in order. -/
def entryList (mode : String) (bs : List EventBatch) : List Entry :=
  bs.flatMap fun b => if mode = "hit" then b.batch.hits.filterMap hitEntry
    else b.neutrons.map fun n => ⟨n.x, n.y, F64.mul n.tof (.fin 25)⟩

/-- Value of a pixel. -/
def pixel (im : List (List (List U32))) (i y x : Nat) : Option Nat :=
  (im[i]?.bind fun img => img[y]?.bind fun row => row[x]?).map BitVec.toNat

open Classical in
/-- How many of the entries are to be counted at a pixel. -/
noncomputable def counted (sr : ℚ) (qs : List ℚ) (d : Nat) (es : List Entry) (i y x : Nat) : Nat :=
  es.countP fun e => Lands sr qs d e i y x

open Classical in
/-- How many of the entries are to be counted somewhere in bin `i`. -/
noncomputable def countedIn (sr : ℚ) (qs : List ℚ) (d : Nat) (es : List Entry) (i : Nat) : Nat :=
  es.countP fun e => ∃ y x, Lands sr qs d e i y x

end Verif.Spec
