import Verif.Spec.CommandLine

/-!
# Specification of the command line of the automatic reducer
-/

namespace Verif.Spec

/-- Letters of the usage text. -/
def redValueLetters : List Char := "ioufmc".toList
def redSwitchLetters : List Char := "dv".toList

/-- What has to hold of the settings together; `sec` is the interval in seconds. -/
def RedSettingsValid (ss : List CliSetting) (sec : Nat) : Prop :=
  valueOr ss 'i' "" ≠ [] ∧ valueOr ss 'o' "" ≠ [] ∧ valueOr ss 'm' "neutron" ∈ ["hit".toList, "neutron".toList] ∧ 0 < sec

end Verif.Spec
