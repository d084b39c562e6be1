import Verif.Model.JsonText
import Verif.Spec.Detector
import Verif.Spec.JsonText
import Verif.Spec.Config
import Verif.Spec.CommandLine
import Verif.Spec.ReducerMain

/-!
# Specification of a job: command line, configuration text, names of files
-/

namespace Verif.Spec

open Verif

/-- The edges of the bins that a configuration gives: a list of numbers, or a number of bins and an end, each with a default. -/
inductive EdgesGiven (j : Json) (edges : List F64) : Prop where
  | listed (vs : List Json) : memberAt j ["tof_imaging", "bin_edges"] = some (.arr vs) → vs ≠ [] → List.Forall₂ IsDouble vs edges →
      EdgesGiven j edges
  | uniform (u : List (String × Json)) (n : Nat) (x : F64) : memberAt j ["tof_imaging", "bin_edges"] = none →
      memberAt j ["tof_imaging", "uniform_bins"] = some (.obj u) → n < 2 ^ 31 - 1 →
      ((u.lookup "num_bins" = none ∧ n = 1500) ∨ u.lookup "num_bins" = some (.uint (BitVec.ofNat 64 n))) →
      ((u.lookup "end" = none ∧ x = F64.ofRat (167 / 10000)) ∨ ∃ v, u.lookup "end" = some v ∧ IsDouble v x) →
      UniformEdges n x edges → EdgesGiven j edges
  | default : memberAt j ["tof_imaging", "bin_edges"] = none → memberAt j ["tof_imaging", "uniform_bins"] = none →
      UniformEdges 1500 (F64.ofRat (167 / 10000)) edges → EdgesGiven j edges

/-- The JSON text at the path gives radius, smallest cluster, time range, super resolution and edges. -/
def ConfigSays (fs : Path → ConfigFile) (p : Path) (r : ℚ) (minSize range : U64) (sr : ℚ) (qs : List ℚ) : Prop :=
  ∃ text j, fs p = .text text ∧ IsJson text j ∧ WellFormed j ∧
    Given j ["abs", "radius"] IsDouble (.fin 5) (.fin r) ∧ Given j ["abs", "min_cluster_size"] IsCount 1#64 minSize ∧
    Given j ["abs", "spider_time_range"] IsCount 75#64 range ∧
    Given j ["tof_imaging", "super_resolution"] IsDouble (.fin 1) (.fin sr) ∧ EdgesGiven j (qs.map .fin)

/-- The words ask for a run: the settings are valid, sizes are integers, and no output overwrites the input or another one. -/
structure Asked (ss : List CliSetting) (argv : List Arg) (mb : List Char → Nat) : Prop where
  written : Written valueLetters switchLetters ss argv
  sizes : ∀ v, .value 'c' v ∈ ss → Integer v (mb v) ∧ mb v < 2 ^ 44 ∧ 0 < mb v
  valid : SettingsValid ss
  hits : valueOr ss 'H' "" ≠ valueOr ss 'i' ""
  events : valueOr ss 'E' "" ≠ valueOr ss 'i' ""
  apart : valueOr ss 'H' "" = valueOr ss 'E' "" → valueOr ss 'H' "" = []

/-- Bytes that the program reads at a time. -/
def pieceSize (ss : List CliSetting) (mb : List Char → Nat) : Nat := ((lastValue ss 'c').map mb).getD 5120 * 2 ^ 20

/-- The words ask the reducer for a run. -/
structure AskedReducer (ss : List CliSetting) (argv : List Arg) (sec : List Char → Nat) : Prop where
  written : Written redValueLetters redSwitchLetters ss argv
  seconds : ∀ v, .value 'c' v ∈ ss → Integer v (sec v) ∧ sec v < 2 ^ 31
  valid : RedSettingsValid ss (((lastValue ss 'c').map sec).getD 5)

end Verif.Spec
