import Verif.Model.Abs

/-!
# What a clustering object should remember of the calls to it
-/

namespace Verif.Spec

open Verif

/-- The method named last, the centroid if none was. -/
def lastMethod (cs : List AbsObj.Call) : String :=
  (cs.filterMap fun | .setMethod m => some m | _ => none).getLastD "centroid"

/-- The hits that were clustered last, none if the object has been reset since. -/
def lastFit (cs : List AbsObj.Call) : Option (List Hit) :=
  (cs.filterMap fun | .fit d => some (some d) | .reset => some none | _ => none).getLastD none

end Verif.Spec
