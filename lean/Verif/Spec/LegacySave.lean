import Verif.Model.LegacySave
import Verif.Spec.Config
import Verif.Spec.H5

/-!
# Specification vocabulary for the parameters and the output of the legacy library

Uses from the model only types, and from `Spec.Config` the description of lines.
-/

namespace Verif.Spec

open Verif

/-- `text` has these lines; the end of the last one may be missing unless the line is empty. -/
def HasLines (text : List Char) (ls : List (List Char)) : Prop :=
  (∀ l ∈ ls, '\n' ∉ l) ∧
    (text = (ls.map fun l => l ++ ['\n']).flatten ∨
      ∃ init last, ls = init ++ [last] ∧ last ≠ [] ∧ text = (init.map fun l => l ++ ['\n']).flatten ++ last)

/-- The line sets the parameter `name` to a number an `unsigned long` can hold. -/
def GivesLong (name : String) (line : List Char) (x : U64) : Prop :=
  ∃ val n, Setting line name.toList val ∧ Integer val n ∧ n < 2 ^ 64 ∧ x = BitVec.ofNat 64 n

/-- A line the format describes. -/
def GoodParam (line : List Char) : Prop :=
  (∃ x, GivesRadius line x) ∨ (∃ x, GivesLong "abs_min_cluster_size" line x) ∨
    (∃ x, GivesLong "spider_time_range" line x) ∨ Neutral line

/-- All digits that stand together on the line make a number below 2^31, unless the line is about the radius. -/
def ShortNumbers (line : List Char) : Prop :=
  ∀ name, FirstWord line name → name ≠ "abs_radius".toList →
    ∀ pre d post, line = pre ++ d ++ post → (∀ c ∈ d, Digit c) → numeral d < 2 ^ 31

/-! ## Files -/

/-- The file of these hits: positions and labels as integers, times in nanoseconds, row by row. -/
def hitsFile (hits : List Hit) (labels : List Int) : PlainFile :=
  [(['h', 'i', 't', 's'],
    [(['x'], .ints (hits.map fun h => h.x)), (['y'], .ints (hits.map fun h => h.y)),
     ("tot_ns".toList, .doubles (hits.map fun h => .fin (25 * h.tot))),
     ("toa_ns".toList, .doubles (hits.map fun h => .fin (25 * h.toa))),
     ("ftoa_ns".toList, .doubles (hits.map fun h => .fin (25 / 16 * h.ftoa))),
     ("tof_ns".toList, .doubles (hits.map fun h => .fin (25 * ((h.tof.map BitVec.toNat).getD 0 : Nat)))),
     ("spidertime_ns".toList, .doubles (hits.map fun h => .fin (25 * h.spidertime.toNat))),
     ("labels".toList, .ints labels)])]

/-- The file of these events: the time of flight in nanoseconds, the sum of the times over threshold in clock ticks. -/
def eventsFile (es : List Neutron) : PlainFile :=
  [(['e', 'v', 'e', 'n', 't', 's'],
    [(['x'], .doubles (es.map fun e => e.x)), (['y'], .doubles (es.map fun e => e.y)),
     ("tof_ns".toList, .doubles (es.map fun e => F64.mul e.tof (.fin 25))),
     (['N', 'H', 'i', 't', 's'], .ints (es.map fun e => (e.nHits : Int))),
     (['t', 'o', 't'], .doubles (es.map fun e => e.tot))])]

/-- Files other than the one named are as they were. -/
def OthersKept (path : Path) (d d' : Disk) : Prop := ∀ q, q ≠ path → d' q = d q

end Verif.Spec
