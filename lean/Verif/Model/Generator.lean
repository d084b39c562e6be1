import Verif.Model.Base

/-!
# Packet generator of the project's tests (SophireadLib/tests/generate_fake_tpx3_data.cpp)
-/

namespace Verif

/-- `packDataHeader` (generate_fake_tpx3_data.cpp:6-38). -/
def packDataHeader (t p x three chip mode numBytes : U64) : U64 :=
  ((numBytes &&& 0xFFFF#64) <<< 48) ||| ((mode &&& 0xFF#64) <<< 40) ||| ((chip &&& 0xFF#64) <<< 32) |||
  ((three &&& 0xFF#64) <<< 24) ||| ((x &&& 0xFF#64) <<< 16) ||| ((p &&& 0xFF#64) <<< 8) |||
  (t &&& 0xFF#64)

/-- `packPixelHit` (generate_fake_tpx3_data.cpp:40-72), with `header = 0xb`; the diagnostic output is
left out. -/
def packPixelHit (spiderTime ftoa tot toa pixaddr : U64) : U64 :=
  ((0xb#64 &&& 0xFF#64) <<< 60) ||| ((pixaddr &&& 0xFFFF#64) <<< 44) ||| ((toa &&& 0x3FFF#64) <<< 30) |||
  ((tot &&& 0x3FF#64) <<< 20) ||| ((ftoa &&& 0xFF#64) <<< 16) ||| (spiderTime &&& 0xFFFF#64)

end Verif
