import Verif.Spec.AnyFile

/-! # How much comes out of a file of a given size -/

namespace Verif.Spec

open Verif

/-- A word that looks like a header lies among the words that an earlier one announces. -/
def Nested (ws : List U64) : Prop :=
  ∃ pre w mid v post, ws = pre ++ w :: (mid ++ v :: post) ∧ StartsTPX w ∧ StartsTPX v ∧ mid.length < field w 48 16 / 8

end Verif.Spec
