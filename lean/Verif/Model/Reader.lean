import Verif.Model.Base

/-!
# Reading a file in chunks (FastSophiread/src/disk_io.cpp:428-497, include/disk_io.h:91-107)
-/

namespace Verif

/-- `class TPX3FileReader` (disk_io.h:91-107): the mapped bytes and `currentPosition`.  The mapping is assumed not
to change while it is open. -/
structure Reader where
  file : Bytes
  pos : Nat

/-- Constructor (disk_io.cpp:428-455) for a file that exists and can be read; `mmap` of length 0 fails. -/
def Reader.open (file : Bytes) : Res Reader :=
  if file.length = 0 then .throws "Failed to mmap file" else .ok ⟨file, 0⟩

/-- `isEOF` (disk_io.h:97). -/
def Reader.isEOF (r : Reader) : Bool := decide (r.file.length ≤ r.pos)

/-- `readChunk` (disk_io.cpp:481-497). -/
def Reader.readChunk (r : Reader) (chunkSize : Nat) : Bytes × Reader :=
  if r.file.length ≤ r.pos then ([], r)
  else
    let remaining := r.file.length - r.pos
    let n := min chunkSize remaining
    ((r.file.drop r.pos).take n, { r with pos := r.pos + n })

end Verif
