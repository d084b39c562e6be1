import Verif.Model.Abs

/-!
# Adaptive box search of the legacy library (SophireadLib/src/abs.cpp, centroid.cpp, fastgaussian.cpp, include/abs.h)

The class and both peak-fitting algorithms have the text of the fast library, with these differences: four clusters are
open instead of eight, `get_events` lacks the test for no hits, the positions are multiplied by `DSCALE`, which is 1.0
(include/tpx3.h:11; the fast library multiplies by the super resolution, 1.0 in `ABS::get_events`), and there is no
`getTOT_ns`.
-/

namespace Verif

/-- `numClusters_` (SophireadLib/include/abs.h:40). -/
def legacyClusters : Nat := 4

namespace AbsObj

/-- `ABS::fit` (SophireadLib/src/abs.cpp:16-110).  The vector `cluster_sizes` is not used there. -/
def legacyFit (o : AbsObj) (data : List Hit) : Res AbsObj := o.fitWith legacyClusters data

/-- `ABS::get_events` (SophireadLib/src/abs.cpp:118-169): for no labels `*max_label_it` reads the end of the vector. -/
def legacyEvents (solve : List GaussRow → F64 × F64) (o : AbsObj) (data : List Hit) : Res (List Neutron) :=
  if o.labels.length ≠ data.length then .throws "ERROR: cluster labels size does not match data!"
  else if o.labels = [] then .ub .oobRead
  else
    match algorithm solve o.method with
    | none => .throws "ERROR: peak fitting method not supported!"
    | some alg => eventLoop o alg data (maxLabelOf o.labels + 1).toNat 0

end AbsObj
end Verif
