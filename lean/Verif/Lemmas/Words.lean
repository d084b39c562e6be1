import Verif.Lemmas.Bits

/-! Byte buffers and the packet words in them. -/

namespace Verif

/-- The first eight bytes as a word. -/
def headWord (l : Bytes) : U64 := BitVec.ofNat 64 (leNat (l.take 8))

theorem leNat_lt (l : Bytes) : leNat l < 256 ^ l.length := by
  induction l with
  | nil => simp [leNat]
  | cons b bs ih =>
    have := b.isLt
    simp only [leNat, List.length_cons, Nat.pow_succ]
    omega

theorem leNat_byte (l : Bytes) (k : Nat) (h : k < l.length) : leNat l / 256 ^ k % 256 = (l[k]).toNat := by
  induction l generalizing k with
  | nil => simp at h
  | cons b bs ih =>
    have hb := b.isLt
    cases k with
    | zero => simp only [leNat, Nat.pow_zero, Nat.div_one, List.getElem_cons_zero]; omega
    | succ k =>
      have hk : k < bs.length := by simpa using h
      simp only [leNat, List.getElem_cons_succ]
      rw [Nat.pow_succ, Nat.mul_comm (256 ^ k) 256, ← Nat.div_div_eq_div_mul]
      have : (b.toNat + 256 * leNat bs) / 256 = leNat bs := by omega
      rw [this, ih k hk]

theorem wordAt_eq (buf : Bytes) (off : Nat) (h : off + 8 ≤ buf.length) :
    wordAt buf off = some (headWord (buf.drop off)) := by
  simp [wordAt, h, headWord]

theorem wordAt_none (buf : Bytes) (off : Nat) (h : buf.length < off + 8) : wordAt buf off = none := by
  unfold wordAt
  rw [if_neg (by omega)]

/-- Byte `k` of the head word is byte `k` of the buffer. -/
theorem byteOf_headWord (l : Bytes) (k : Nat) (hk : k < 8) (h : 8 ≤ l.length) :
    byteOf (headWord l) k = l[k]'(by omega) := by
  apply BitVec.eq_of_toNat_eq
  rw [byteOf_toNat]
  have hlen : (l.take 8).length = 8 := by simp; omega
  have hlt := leNat_lt (l.take 8)
  rw [hlen] at hlt
  have htn : (headWord l).toNat = leNat (l.take 8) := by
    unfold headWord
    rw [BitVec.toNat_ofNat, Nat.mod_eq_of_lt]
    exact lt_of_lt_of_le hlt (by norm_num)
  have hb := leNat_byte (l.take 8) k (by omega)
  have h256 : (256 : Nat) ^ k = 2 ^ (8 * k) := by rw [Nat.pow_mul]
  rw [htn, ← h256, hb, List.getElem_take]

theorem wordsOf_short (l : Bytes) (h : l.length < 8) : wordsOf l = [] := by
  unfold wordsOf
  rw [Nat.div_eq_of_lt h]
  rfl

theorem wordsOf_cons (l : Bytes) (h : 8 ≤ l.length) : wordsOf l = headWord l :: wordsOf (l.drop 8) := by
  unfold wordsOf
  have h1 : l.length / 8 = (l.drop 8).length / 8 + 1 := by rw [List.length_drop]; omega
  rw [h1, List.range_succ_eq_map, List.map_cons, List.map_map]
  congr 1
  apply List.map_congr_left
  intro k _
  simp only [Function.comp]
  rw [List.drop_drop]
  have : 8 * k.succ = 8 + 8 * k := by omega
  rw [this]

theorem wordsOf_length (l : Bytes) : (wordsOf l).length = l.length / 8 := by
  simp [wordsOf]

theorem wordsOf_getElem (l : Bytes) (k : Nat) (h : k < (wordsOf l).length) :
    (wordsOf l)[k] = headWord (l.drop (8 * k)) := by
  simp [wordsOf, headWord]

theorem bytesOf_length (w : U64) : (bytesOf w).length = 8 := by simp [bytesOf]

theorem headWord_bytesOf (w : U64) (l : Bytes) : headWord (bytesOf w ++ l) = w := by
  have h1 : (bytesOf w ++ l).take 8 = bytesOf w := by
    rw [List.take_append_of_le_length (by simp [bytesOf_length])]
    exact List.take_of_length_le (by simp [bytesOf_length])
  apply BitVec.eq_of_toNat_eq
  unfold headWord
  rw [h1, BitVec.toNat_ofNat]
  have h2 : leNat (bytesOf w) = w.toNat := by
    have e : bytesOf w = [byteOf w 0, byteOf w 1, byteOf w 2, byteOf w 3, byteOf w 4, byteOf w 5, byteOf w 6,
      byteOf w 7] := rfl
    have hw := w.isLt
    rw [e]
    simp only [leNat, byteOf_toNat]
    omega
  rw [h2]
  exact Nat.mod_eq_of_lt w.isLt

theorem wordsOf_bytesOf_append (w : U64) (l : Bytes) : wordsOf (bytesOf w ++ l) = w :: wordsOf l := by
  rw [wordsOf_cons _ (by simp [bytesOf_length]), headWord_bytesOf,
    ← bytesOf_length w, List.drop_left]

theorem wordsOf_flatMap_append (ws : List U64) (l : Bytes) :
    wordsOf (ws.flatMap bytesOf ++ l) = ws ++ wordsOf l := by
  induction ws with
  | nil => simp
  | cons w ws ih => simp only [List.flatMap_cons, List.append_assoc, wordsOf_bytesOf_append, ih, List.cons_append]

theorem wordsOf_flatMap (ws : List U64) : wordsOf (ws.flatMap bytesOf) = ws := by
  have := wordsOf_flatMap_append ws []
  simpa [wordsOf_short] using this

theorem length_flatMap_bytesOf (ws : List U64) : (ws.flatMap bytesOf).length = 8 * ws.length := by
  induction ws with
  | nil => rfl
  | cons w ws ih => simp [List.flatMap_cons, ih, bytesOf_length]; omega

theorem drop_flatMap_bytesOf (ws : List U64) (l : Bytes) (k : Nat) (h : k ≤ ws.length) :
    (ws.flatMap bytesOf ++ l).drop (8 * k) = (ws.drop k).flatMap bytesOf ++ l := by
  induction k generalizing ws with
  | zero => rfl
  | succ k ih =>
    cases ws with
    | nil => simp at h
    | cons w ws =>
      have h' : k ≤ ws.length := by simpa using h
      rw [List.flatMap_cons, List.append_assoc, List.drop_succ_cons]
      have e : 8 * (k + 1) = (bytesOf w).length + 8 * k := by rw [bytesOf_length]; omega
      rw [e, ← List.drop_drop, List.drop_left]
      exact ih ws h'

theorem wordsOf_drop (l : Bytes) (k : Nat) : wordsOf (l.drop (8 * k)) = (wordsOf l).drop k := by
  apply List.ext_getElem
  · simp only [wordsOf_length, List.length_drop]; omega
  · intro i h1 h2
    rw [wordsOf_getElem, List.getElem_drop, wordsOf_getElem, List.drop_drop]
    congr 2
    omega

/-- Only complete words of a prefix matter. -/
theorem wordsOf_take (l : Bytes) (k : Nat) (h : k ≤ l.length / 8) : wordsOf (l.take (8 * k)) = (wordsOf l).take k := by
  apply List.ext_getElem
  · simp only [wordsOf_length, List.length_take]; omega
  · intro i h1 h2
    rw [wordsOf_getElem, List.getElem_take, wordsOf_getElem]
    unfold headWord
    rw [List.drop_take, List.take_take]
    have : i < k := by simp at h2; omega
    congr 3
    omega

end Verif
