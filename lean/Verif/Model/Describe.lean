import Verif.Model.Dbscan
import Verif.Model.Text
import Verif.Model.CliMain
import Verif.Model.LegacySave

/-!
# The descriptions that `toString` gives of hits, events and settings

A `std::stringstream` prints doubles with six significant digits (`doubleText`) and integers in decimal.
-/

namespace Verif

/-- `Hit::toString` (hit.h:85-91, SophireadLib/src/tpx3.cpp:17-23).  Printing an `m_tof` that was never written is undefined. -/
def Hit.text (h : Hit) : Res (List Char) := match h.tof with
  | none => .ub .indeterminate
  | some t => .ok ("Hit: x=".toList ++ intText h.x ++ ", y=".toList ++ intText h.y ++ ", tot=".toList ++ intText h.tot ++
      ", toa=".toList ++ intText h.toa ++ ", ftoa=".toList ++ intText h.ftoa ++ ", tof=".toList ++ natText t.toNat ++
      ", spidertime=".toList ++ natText h.spidertime.toNat)

/-- `Neutron::toString` (neutron.h:32-37). -/
def Neutron.text (n : Neutron) : List Char :=
  "Neutron: x= ".toList ++ doubleText n.x ++ ", y= ".toList ++ doubleText n.y ++ ", tof= ".toList ++ doubleText n.tof ++
    ", nHits= ".toList ++ natText n.nHits

/-- `NeutronEvent::toString` (SophireadLib/src/tpx3.cpp:25-30). -/
def NEvent.text (n : NEvent) : List Char :=
  "NeutronEvent: x=".toList ++ doubleText n.x ++ ", y=".toList ++ doubleText n.y ++ ", tof=".toList ++ doubleText n.tof ++
    ", nHits=".toList ++ intText n.nHits

/-- The settings of the clustering (SophireadLib/src/tpx3.cpp:34-36, json_config_parser.cpp:126-128, user_config.cpp:50-52). -/
def absText (radius : F64) (size range : U64) : List Char :=
  "ABS: radius=".toList ++ doubleText radius ++ ", min_cluster_size=".toList ++ natText size.toNat ++
    ", spider_time_range=".toList ++ natText range.toNat

/-- `Params::toString` (SophireadLib/src/tpx3.cpp:32-39). -/
def LegacyParams.text (p : LegacyParams) : List Char := absText p.radius p.minClusterSize p.spiderTimeRange

/-- Custom edges (json_config_parser.cpp:131-132, user_config.cpp:60-61). -/
def customText (edges : List F64) : List Char := ", Custom TOF binning with ".toList ++ natText (edges.length - 1) ++ " bins".toList

/-- Uniform bins (json_config_parser.cpp:134-136, user_config.cpp:56-58): the maximum in milliseconds. -/
def uniformText (bins : Int) (max : F64) : List Char :=
  ", TOF bins=".toList ++ intText bins ++ ", TOF max=".toList ++ doubleText (F64.mul max (F64.ofInt 1000)) ++ " ms".toList

/-- The last setting (json_config_parser.cpp:139, user_config.cpp:66). -/
def superText (sr : F64) : List Char := ", Super Resolution=".toList ++ doubleText sr

/-- `JSONConfigParser::toString` (json_config_parser.cpp:124-142). -/
def JsonConfig.text (c : JsonConfig) : Res (List Char) := do
  let r ← c.radius
  let m ← c.minClusterSize
  let t ← c.spiderTimeRange
  let b := if c.binning.custom ≠ [] then customText c.binning.custom
    else uniformText (c.binning.numBins.getD 1500) (c.binning.tofMax.getD defaultTofMax)
  let s ← c.superResolution
  .ok (absText r m t ++ b ++ superText s)

/-- `UserConfig::toString` (user_config.cpp:48-69). -/
def UserConfig.text (c : UserConfig) : List Char :=
  let b := if c.binning.numBins.isSome ∧ c.binning.tofMax.isSome ∧ c.binning.custom = [] then
      uniformText (c.binning.numBins.getD 0) (c.binning.tofMax.getD (F64.ofInt 0))
    else if c.binning.custom ≠ [] then customText c.binning.custom
    else ", TOF binning not set".toList
  absText c.radius c.minClusterSize c.spiderTimeRange ++ b ++ superText c.superResolution

end Verif
