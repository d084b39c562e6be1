import Mathlib.Data.List.Basic

/-! # Specification vocabulary for programs of two threads -/

namespace Verif.Spec

/-- Every thread gets its turn again and again. -/
def Fair (sched : Nat → Bool) : Prop := ∀ (b : Bool) (n : Nat), ∃ m, n ≤ m ∧ sched m = b

/-- `out` consists of parts of `l` in order, each element at most once, and misses only one contiguous stretch of fewer
than `k` elements, which starts after a whole number of blocks of `k`. -/
def MissesOnlyAStretch {α : Type} (k : Nat) (l out : List α) : Prop :=
  ∃ a b c, l = a ++ b ++ c ∧ out = a ++ c ∧ b.length < k ∧ k ∣ a.length

end Verif.Spec
