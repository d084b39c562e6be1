import Verif.Model.LegacySave

/-! # What the comparison of results is about -/

namespace Verif.Spec

open Verif

/-- The list has every file below `result` whose name ends with the extension, once, in any order. -/
def ListsResults (ext : List Char) (d : Disk) (found : List Path) : Prop :=
  found.Nodup ∧ ∀ p, p ∈ found ↔ d p ≠ none ∧ "result/".toList <+: p ∧ '.' :: ext <:+ p

/-- A blank for `diff -b`. -/
def IsBlank (b : BitVec 8) : Prop := b = 0x20#8 ∨ b = 0x09#8 ∨ b = 0x0B#8 ∨ b = 0x0C#8 ∨ b = 0x0D#8

/-- One change that `diff -b` ignores: another number of blanks in a place that has some, and blanks at the end of a line. -/
inductive BlankChange : Bytes → Bytes → Prop where
  | run (a b : Bytes) {x y z : BitVec 8} (hx : IsBlank x) (hy : IsBlank y) (hz : IsBlank z) : BlankChange (a ++ x :: b) (a ++ y :: z :: b)
  | line (a b : Bytes) {x : BitVec 8} (hx : IsBlank x) : BlankChange (a ++ x :: 0x0A#8 :: b) (a ++ 0x0A#8 :: b)
  | last (a : Bytes) {x : BitVec 8} (hx : IsBlank x) : BlankChange (a ++ [x]) a

end Verif.Spec
