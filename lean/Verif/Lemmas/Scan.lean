import Verif.Lemmas.Tpx3
import Verif.Model.Pipeline

/-! # Lemmas about the header scan on streams, and the limited scan -/

namespace Verif

open Verif.Spec

theorem isHeader_iff_starts (w : U64) : isHeader w = true ↔ StartsTPX w := by
  unfold isHeader StartsTPX field
  simp only [Bool.and_eq_true, beq_iff_eq, ← BitVec.toNat_inj, byteOf_toNat, BitVec.reduceToNat]
  simp only [Nat.reducePow, Nat.reduceMul]
  omega

theorem headerPackets_field (w : U64) : headerPackets w = field w 48 16 / 8 := by
  rw [headerPackets_eq, byteOf_toNat, byteOf_toNat]
  unfold field
  simp only [Nat.reducePow, Nat.reduceMul]
  omega

theorem headerChip_eq (w : U64) : headerChip w = headerChipId w := by
  have h : (byteOf w 4).toNat = field w 32 8 := by
    rw [byteOf_toNat]; unfold field; rfl
  unfold headerChip headerChipId
  rw [BitVec.toInt_eq_toNat_cond, h]
  simp only [Nat.reducePow]
  split_ifs <;> omega

theorem scan_append (ws vs : List U64) (off : Nat) :
    scan (ws ++ vs) off = scan ws off ++ scan vs (off + 8 * ws.length) := by
  induction ws generalizing off with
  | nil => simp [scan]
  | cons w ws ih =>
    have e : off + 8 * (w :: ws).length = off + 8 + 8 * ws.length := by simp only [List.length_cons]; omega
    rw [List.cons_append, scan, scan, ih, e]
    split_ifs <;> rfl

theorem scan_length (ws : List U64) (off : Nat) : (scan ws off).length = ws.countP (fun w => StartsTPX w) := by
  induction ws generalizing off with
  | nil => rfl
  | cons w ws ih =>
    rw [scan, List.countP_cons]
    by_cases h : StartsTPX w
    · rw [if_pos ((isHeader_iff_starts w).mpr h)]; simp [h, ih]
    · rw [if_neg (fun x => h ((isHeader_iff_starts w).mp x))]; simp [h, ih]

theorem scan_none (ws : List U64) (off : Nat) (h : ∀ w ∈ ws, ¬ StartsTPX w) : scan ws off = [] := by
  apply List.eq_nil_of_length_eq_zero
  rw [scan_length, List.countP_eq_zero]
  simpa using h

/-- The batch of a well-formed chunk. -/
def chunkBatch (off : Nat) (c : Chunk) : Batch := Batch.new off c.packets.length (headerChipId c.header)

theorem streamWords_cons (c : Chunk) (cs : List Chunk) :
    streamWords (c :: cs) = c.header :: (c.packets ++ streamWords cs) := by
  simp [streamWords]

theorem streamWords_append (cs ds : List Chunk) : streamWords (cs ++ ds) = streamWords cs ++ streamWords ds := by
  simp [streamWords]

theorem streamBytes_append (cs ds : List Chunk) : streamBytes (cs ++ ds) = streamBytes cs ++ streamBytes ds := by
  simp [streamBytes, streamWords_append]

theorem streamBytes_length (cs : List Chunk) : (streamBytes cs).length = 8 * (streamWords cs).length :=
  length_flatMap_bytesOf _

theorem wordsOf_streamBytes (cs : List Chunk) : wordsOf (streamBytes cs) = streamWords cs := wordsOf_flatMap _

theorem header_batch (c : Chunk) (h : c.WellFormed) (off : Nat) :
    Batch.new off (headerPackets c.header) (headerChip c.header) = chunkBatch off c := by
  unfold chunkBatch
  rw [headerPackets_field, h.2, headerChip_eq, Nat.mul_div_cancel_left _ (by omega)]

theorem scan_chunk (c : Chunk) (rest : List U64) (off : Nat) (h : c.WellFormed) :
    scan (c.header :: (c.packets ++ rest)) off =
      chunkBatch off c :: (scan c.packets (off + 8) ++ scan rest (off + 8 + 8 * c.packets.length)) := by
  rw [scan, if_pos ((isHeader_iff_starts _).mpr h.1), header_batch c h, scan_append]

/-! ### Limited scan -/

/-- The limited scan on a list of words. -/
def scanLim (len : Nat) : List U64 → Nat → Nat → List Batch × Nat
  | [], off, _ => ([], off)
  | w :: ws, off, count =>
    if isHeader w then
      if len ≤ count + 1 then ([Batch.new off (headerPackets w) (headerChip w)], off)
      else (Batch.new off (headerPackets w) (headerChip w) :: (scanLim len ws (off + 8) (count + 1)).1,
        (scanLim len ws (off + 8) (count + 1)).2)
    else scanLim len ws (off + 8) count

theorem findLimLoop_eq (buf : Bytes) (len fuel off count : Nat) (h : (buf.length - off) / 8 < fuel) :
    findLimLoop buf len fuel off count = .ok (scanLim len (wordsOf (buf.drop off)) off count) := by
  induction fuel generalizing off count with
  | zero => omega
  | succ fuel ih =>
    rw [findLimLoop]
    by_cases h8 : 8 ≤ buf.length - off
    · rw [if_pos h8, wordAt_eq _ _ (by omega), wordsOf_cons _ (by rw [List.length_drop]; exact h8)]
      simp only [ih (off + 8) _ (by omega), scanLim, List.drop_drop]
      split_ifs <;> rfl
    · rw [if_neg h8, wordsOf_short _ (by rw [List.length_drop]; omega)]
      rfl

theorem findTPX3HLim_eq (buf : Bytes) (len : Nat) : findTPX3HLim buf len = .ok (scanLim len (wordsOf buf) 0 0) := by
  have := findLimLoop_eq buf len (buf.length / 8 + 1) 0 0 (by omega)
  simpa [findTPX3HLim] using this

/-- The limited scan either reads everything, or stops at a header that is the `len`-th one. -/
theorem scanLim_cases (len : Nat) (ws : List U64) (off count : Nat) (hc : count < len) :
    (scanLim len ws off count = (scan ws off, off + 8 * ws.length) ∧
      ws.countP (fun w => StartsTPX w) + count < len) ∨
    ∃ pre h post, ws = pre ++ h :: post ∧ StartsTPX h ∧
      pre.countP (fun w => StartsTPX w) + count + 1 = len ∧
      scanLim len ws off count =
        (scan pre off ++ [Batch.new (off + 8 * pre.length) (headerPackets h) (headerChip h)],
          off + 8 * pre.length) := by
  induction ws generalizing off count with
  | nil => left; simpa [scanLim, scan] using hc
  | cons w ws ih =>
    by_cases hw : StartsTPX w
    · have hw' := (isHeader_iff_starts w).mpr hw
      by_cases hl : len ≤ count + 1
      · right
        refine ⟨[], w, ws, rfl, hw, by simp; omega, ?_⟩
        rw [scanLim, if_pos hw', if_pos hl]
        rfl
      · rcases ih (off + 8) (count + 1) (by omega) with ⟨e, hn⟩ | ⟨pre, h, post, rfl, hh, hn, e⟩
        · left
          rw [scanLim, if_pos hw', if_neg hl, e, scan, if_pos hw', List.countP_cons]
          refine ⟨?_, by simp [hw]; omega⟩
          simp only [List.length_cons, Prod.mk.injEq, true_and]; omega
        · right
          refine ⟨w :: pre, h, post, rfl, hh, by rw [List.countP_cons]; simp [hw]; omega, ?_⟩
          have e2 : off + 8 + 8 * pre.length = off + 8 * (w :: pre).length := by
            simp only [List.length_cons]; omega
          rw [scanLim, if_pos hw', if_neg hl, e, scan, if_pos hw', e2]
          rfl
    · have hw' : ¬ isHeader w = true := fun x => hw ((isHeader_iff_starts w).mp x)
      rcases ih (off + 8) count hc with ⟨e, hn⟩ | ⟨pre, h, post, rfl, hh, hn, e⟩
      · left
        rw [scanLim, if_neg hw', e, scan, if_neg hw', List.countP_cons]
        refine ⟨?_, by simp [hw]; omega⟩
        simp only [List.length_cons, Prod.mk.injEq, true_and]; omega
      · right
        refine ⟨w :: pre, h, post, rfl, hh, by rw [List.countP_cons]; simp [hw]; omega, ?_⟩
        have e2 : off + 8 + 8 * pre.length = off + 8 * (w :: pre).length := by
          simp only [List.length_cons]; omega
        rw [scanLim, if_neg hw', e, scan, if_neg hw', e2]

end Verif
