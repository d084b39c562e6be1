import Verif.Model.Config
import Verif.Model.Legacy
import Verif.Model.Pipeline

/-!
Replays the project's tests that read the data files of the repository.  A test of the model, not a proof.  Run in
`/verif/lean`:

    lake env lean --run Verif/ReplayFiles.lean /repo/sophiread/resources/data

The model reads from lists, so that a file is cut into pieces.  Cuts are made where a data block ends, and the timestamps
are carried from piece to piece as the program carries them from batch to batch.
-/

namespace Verif.ReplayFiles

/-- Little-endian word. -/
def word (d : ByteArray) (i : Nat) : U64 :=
  (List.range 8).foldl (fun (w : U64) k => w ||| (BitVec.ofNat 64 (d.get! (i + k)).toNat <<< (8 * k))) 0#64

/-- Positions at which to cut: ends of blocks, at least `step` bytes apart.  Every step goes on by at least 8 bytes, so
that the size of the file is enough fuel. -/
def cuts (d : ByteArray) (step : Nat) : Nat → Nat → Nat → List Nat → List Nat
  | 0, _, _, acc => (d.size :: acc).reverse
  | fuel + 1, pos, last, acc =>
    if pos + 8 ≤ d.size then
      let w := word d pos
      let next := if isHeader w then pos + 8 * (headerPackets w + 1) else pos + 8
      if step ≤ next - last ∧ next ≤ d.size then cuts d step fuel next next (next :: acc)
      else cuts d step fuel next last acc
    else (d.size :: acc).reverse

/-- The pieces. -/
def pieces (d : ByteArray) (step : Nat) : List Bytes :=
  ((cuts d step d.size 0 0 []).foldl (fun (r : Nat × List Bytes) e =>
    (e, ((d.extract r.1 e).toList.map fun b => BitVec.ofNat 8 b.toNat) :: r.2)) (0, [])).2.reverse

/-- `updateTimestamp` for all batches. -/
def update (buf : Bytes) : List Batch → Clock → Res (List Batch × Clock)
  | [], c => .ok ([], c)
  | b :: bs, c => do
    let r ← updateTimestamp .gdc buf b c
    let rs ← update buf bs r.2
    .ok (r.1 :: rs.1, rs.2)

/-- test_tpx3.cpp:74-155 (FastSophiread): numbers of batches and of hits. -/
def fast (ps : List Bytes) : Res (Nat × Nat) := do
  let r ← ps.foldlM (init := (0, 0, Clock.zero)) fun (nb, nh, c) buf => do
    let bs ← findTPX3H buf
    let u ← update buf bs c
    let hs ← u.1.mapM (extractHits .gdc buf)
    .ok (nb + bs.length, nh + (hs.map fun b => b.hits.length).sum, u.2)
  .ok (r.1, r.2.1)

/-- Outcome of a test. -/
def report (name : String) (ok : Bool) : IO Unit := IO.println s!"{if ok then "ok  " else "FAIL"} {name}"

end Verif.ReplayFiles

open Verif ReplayFiles in
/-- Entry point for `lean --run`. -/
def main (args : List String) : IO UInt32 := do
  let dir := args.headD "/repo/sophiread/resources/data"
  let suann ← IO.FS.readBinFile s!"{dir}/suann_socket_background_serval32.tpx3"
  match fast (pieces suann 4096) with
  | .ok (nb, nh) =>
    IO.println s!"     {nb} batches, {nh} hits"
    report "FastSophiread test_tpx3.cpp: 81399 batches" (nb == 81399)
    report "FastSophiread test_tpx3.cpp: 98533 hits" (nh == 98533)
  | _ => report "FastSophiread test_tpx3.cpp" false
  let greg ← IO.FS.readBinFile s!"{dir}/greg_220ms_TDC_GDC_enabled_20230214_3.tpx3"
  match readTimepix3RawData (greg.toList.map fun b => BitVec.ofNat 8 b.toNat) with
  | .ok hs =>
    IO.println s!"     {hs.length} hits"
    report "SophireadLib test_tpx3.cpp: 365 hits" (hs.length == 365)
    report "SophireadLib test_tpx3.cpp: first hit" ((hs.head?.map fun h => (h.x, h.y, h.tot, h.toa, h.ftoa)) ==
      some (146, 310, 2, 1293, 4))
    report "SophireadLib test_tpx3.cpp: last hit" ((hs.getLast?.map fun h => (h.x, h.y, h.tot, h.toa, h.ftoa)) ==
      some (104, 415, 43, 14683, 11))
  | _ => report "SophireadLib test_tpx3.cpp" false
  let roll ← IO.FS.readBinFile s!"{dir}/rollover_test_data.tpx3"
  match readTimepix3RawData (roll.toList.map fun b => BitVec.ofNat 8 b.toNat) with
  | .ok hs => report "SophireadLib test_tpx3.cpp: 26 hits" (hs.length == 26)
  | _ => report "SophireadLib test_tpx3.cpp (rollover)" false
  return 0
