import Verif.Model.ReferenceText
import Verif.Lemmas.Text

/-! # Reading back numbers with any number of digits -/

namespace Verif

open Verif.Spec

theorem sigDigits_spec (k : Nat) (q : ℚ) (hq : 0 < q) :
    10 ^ k ≤ (sigDigits k q).1 ∧ (sigDigits k q).1 < 10 ^ (k + 1) ∧
      ∃ e : Int, |((sigDigits k q).1 : ℚ) * 10 ^ ((sigDigits k q).2 - k) - q| ≤ 10 ^ e / 2 ∧ (10 : ℚ) ^ (e + k) ≤ q ∧
        q < 10 ^ (e + k + 1) := by
  have hpos : ∀ e : ℤ, (0 : ℚ) < 10 ^ e := fun e => zpow_pos (by norm_num) e
  have h1 : (10 : ℚ) ^ Int.log 10 q ≤ q := by
    have := Int.zpow_log_le_self (b := 10) (by norm_num) hq
    exact_mod_cast this
  have h2 : q < (10 : ℚ) ^ (Int.log 10 q + 1) := by
    have := Int.lt_zpow_succ_log_self (b := 10) (by norm_num) q
    exact_mod_cast this
  generalize hx : Int.log 10 q = x at h1 h2
  have hd := hpos (x - k)
  have e5 : (10 : ℚ) ^ x = 10 ^ k * 10 ^ (x - k) := by
    rw [← zpow_natCast, ← zpow_add₀ (by norm_num)]
    congr 1
    ring
  have e6 : (10 : ℚ) ^ (x + 1) = 10 ^ (k + 1) * 10 ^ (x - k) := by
    rw [← zpow_natCast, ← zpow_add₀ (by norm_num)]
    congr 1
    push_cast
    ring
  have lo : (((10 ^ k : ℕ) : ℤ) : ℚ) ≤ q / 10 ^ (x - k) := by
    push_cast; rw [le_div_iff₀ hd, ← e5]; exact h1
  have hi : q / 10 ^ (x - k) ≤ (((10 ^ (k + 1) : ℕ) : ℤ) : ℚ) := by
    push_cast; rw [div_le_iff₀ hd, ← e6]; exact h2.le
  have rlo : ((10 ^ k : ℕ) : ℤ) ≤ roundNE (q / 10 ^ (x - k)) := by
    have := roundNE_mono lo
    rwa [roundNE_int] at this
  have rhi : roundNE (q / 10 ^ (x - k)) ≤ ((10 ^ (k + 1) : ℕ) : ℤ) := by
    have := roundNE_mono hi
    rwa [roundNE_int] at this
  have herr := abs_roundNE_sub_le (q / 10 ^ (x - k))
  have hmul : |(roundNE (q / 10 ^ (x - k)) : ℚ) * 10 ^ (x - k) - q| ≤ 10 ^ (x - k) / 2 := by
    have e : (roundNE (q / 10 ^ (x - k)) : ℚ) * 10 ^ (x - k) - q =
        ((roundNE (q / 10 ^ (x - k)) : ℚ) - q / 10 ^ (x - k)) * 10 ^ (x - k) := by
      rw [sub_mul, div_mul_cancel₀ _ hd.ne']
    rw [e, abs_mul, abs_of_pos hd]
    calc _ ≤ 1 / 2 * (10 : ℚ) ^ (x - k) := mul_le_mul_of_nonneg_right herr hd.le
      _ = _ := by ring
  have b1 : (10 : ℚ) ^ (x - k + k) ≤ q := by rw [show x - (k : ℤ) + k = x by ring]; exact h1
  have b2 : q < (10 : ℚ) ^ (x - k + k + 1) := by rw [show x - (k : ℤ) + k + 1 = x + 1 by ring]; exact h2
  have h0 : 0 ≤ roundNE (q / 10 ^ (x - k)) := le_trans (by positivity) rlo
  unfold sigDigits
  simp only [hx]
  have hcast : (((roundNE (q / 10 ^ (x - k))).toNat : ℕ) : ℚ) = (roundNE (q / 10 ^ (x - k)) : ℚ) := by
    have : ((roundNE (q / 10 ^ (x - k))).toNat : ℤ) = roundNE (q / 10 ^ (x - k)) := Int.toNat_of_nonneg h0
    exact_mod_cast this
  have hlt : 10 ^ k < 10 ^ (k + 1) := Nat.pow_lt_pow_right (by norm_num) (by omega)
  split_ifs with hm
  · refine ⟨le_refl _, hlt, x - k, ?_, b1, b2⟩
    have hm' : (roundNE (q / 10 ^ (x - k)) : ℚ) = 10 ^ (k + 1) := by rw [← hcast, hm]; push_cast; rfl
    rw [hm'] at hmul
    have e : ((10 ^ k : ℕ) : ℚ) * 10 ^ (x + 1 - k) = 10 ^ (k + 1) * 10 ^ (x - k) := by
      rw [show x + 1 - (k : ℤ) = (x - k) + 1 by ring, zpow_add₀ (by norm_num)]
      push_cast
      ring
    simp only
    rw [e]
    exact hmul
  · simp only
    refine ⟨by omega, by omega, x - k, ?_, b1, b2⟩
    rw [hcast]
    exact hmul

/-- The value of the digits. -/
def sigValue (k : Nat) (q : ℚ) : ℚ := ((sigDigits k q).1 : ℚ) * 10 ^ ((sigDigits k q).2 - k)

/-- Numbers with few digits are not changed. -/
theorem sigValue_exact (k : Nat) (q : ℚ) (hq : 0 < q) (z : ℤ) (hz : q = z * 10 ^ (Int.log 10 q - k)) : sigValue k q = q := by
  have hd : (0 : ℚ) < 10 ^ (Int.log 10 q - k) := zpow_pos (by norm_num) _
  have hz0 : 0 < z := by
    have : (0 : ℚ) < z := by
      by_contra h
      have := mul_nonpos_of_nonpos_of_nonneg (not_lt.mp h) hd.le
      linarith
    exact_mod_cast this
  unfold sigValue sigDigits
  simp only
  generalize Int.log 10 q = x at *
  have hr : roundNE (q / 10 ^ (x - k)) = z := by rw [hz, mul_div_assoc, div_self hd.ne', mul_one, roundNE_int]
  rw [hr]
  have hc : ((z.toNat : ℕ) : ℚ) = z := by
    have : ((z.toNat : ℕ) : ℤ) = z := Int.toNat_of_nonneg hz0.le
    exact_mod_cast this
  split_ifs with hm
  · simp only
    rw [hz, ← hc, hm, show x + 1 - (k : ℤ) = (x - k) + 1 by ring, zpow_add₀ (by norm_num)]
    push_cast
    ring
  · simp only
    rw [hc]
    exact hz.symm

theorem natText_length_pow {m k : Nat} (h1 : 10 ^ k ≤ m) (h2 : m < 10 ^ (k + 1)) : (natText m).length = k + 1 := by
  have a := (Nat.length_toDigits_le_iff (b := 10) (n := m) (k := k + 1) (by norm_num) (by omega)).mpr h2
  unfold natText
  rcases Nat.eq_zero_or_pos k with rfl | hk
  · have := Nat.length_toDigits_pos (b := 10) (n := m)
    omega
  · by_contra hne
    have := (Nat.length_toDigits_le_iff (b := 10) (n := m) (k := k) (by norm_num) hk).mp (by omega)
    omega

theorem readUnsigned_posTextPrec (k : Nat) (q : ℚ) (hq : 0 < q) : readUnsigned? (posTextPrec k q) = some (sigValue k q) := by
  obtain ⟨h1, h2, -⟩ := sigDigits_spec k q hq
  have hlen := natText_length_pow h1 h2
  have hdig := natText_digits (sigDigits k q).1
  unfold posTextPrec sigValue
  have hval := natText_val (sigDigits k q).1
  have hne := natText_ne_nil (sigDigits k q).1
  generalize (sigDigits k q).1 = m at *
  generalize (sigDigits k q).2 = x at *
  simp only
  have hz : ∀ (k : Nat), ((m : ℕ) : ℚ) / 10 ^ k = m * 10 ^ (-(k : ℤ)) := by
    intro k
    rw [zpow_neg, zpow_natCast, div_eq_mul_inv]
  split_ifs with c1 c2
  · rw [readUnsigned_fixed _ _ _ (fun c hc => hdig c (List.mem_of_mem_take hc)) (fun c hc => hdig c (List.mem_of_mem_drop hc)),
      List.take_append_drop, hval, List.length_drop, hlen, hz]
    · congr 3
      omega
    · intro h
      rw [List.take_eq_nil_iff] at h
      rcases h with h | h
      · omega
      · exact hne h
  · have := readUnsigned_fixed ['0'] (List.replicate ((-x).toNat - 1) '0' ++ natText m) (by simp) (by decide) (by
      intro c hc
      rcases List.mem_append.mp hc with hc | hc
      · rw [List.eq_of_mem_replicate hc]; decide
      · exact hdig c hc)
    rw [List.singleton_append] at this
    rw [this, List.length_append, List.length_replicate, hlen]
    have hv : Nat.ofDigitChars 10 (['0'] ++ (List.replicate ((-x).toNat - 1) '0' ++ natText m)) 0 = m := by
      rw [← List.append_assoc, Nat.ofDigitChars_append, Nat.ofDigitChars_append, Nat.ofDigitChars_replicate_zero]
      have : Nat.ofDigitChars 10 ['0'] 0 = 0 := by decide
      rw [this, Nat.mul_zero, hval]
    rw [hv, hz]
    congr 3
    omega
  · rw [readUnsigned_exp _ _ _ _ (fun c hc => hdig c (List.mem_of_mem_take hc)) (fun c hc => hdig c (List.mem_of_mem_drop hc)),
      List.take_append_drop, hval, List.length_drop, hlen, hz, mul_assoc, ← zpow_add₀ (by norm_num)]
    · congr 3
      push_cast
      omega
    · intro h
      rw [List.take_eq_nil_iff] at h
      rcases h with h | h
      · omega
      · exact hne h

theorem posTextPrec_head (k : Nat) (q : ℚ) : ∃ c cs, posTextPrec k q = c :: cs ∧ c.isDigit = true := by
  have hdig := natText_digits (sigDigits k q).1
  have hne := natText_ne_nil (sigDigits k q).1
  unfold posTextPrec
  generalize (sigDigits k q).1 = m at *
  generalize (sigDigits k q).2 = x at *
  simp only
  cases hl : natText m with
  | nil => exact absurd hl hne
  | cons c cs =>
    have hc : c.isDigit = true := hdig c (by rw [hl]; simp)
    split_ifs
    · exact ⟨c, _, rfl, hc⟩
    · exact ⟨'0', _, rfl, by decide⟩
    · exact ⟨c, _, rfl, hc⟩

theorem readDecimal_exact (k : Nat) (m : Nat) (hm : m < 10 ^ (k + 1)) : readDecimal? (doubleTextPrec k (.fin m)) = some (m : ℚ) := by
  unfold doubleTextPrec
  simp only
  by_cases h0 : (m : ℚ) = 0
  · rw [if_pos h0, h0]
    decide +kernel
  · have hq : 0 < (m : ℚ) := lt_of_le_of_ne (by positivity) (Ne.symm h0)
    rw [if_neg h0, if_neg (not_lt.mpr hq.le)]
    obtain ⟨c, cs, he, hc⟩ := posTextPrec_head k m
    have := readUnsigned_posTextPrec k m hq
    have hx : 0 ≤ Int.log 10 (m : ℚ) ∧ Int.log 10 (m : ℚ) ≤ k := by
      rw [Int.log_natCast]
      have : Nat.log 10 m < k + 1 := Nat.log_lt_of_lt_pow (by rintro rfl; simp at h0) hm
      omega
    rw [sigValue_exact k m hq (m * 10 ^ (k - (Int.log 10 (m : ℚ)).toNat)) (by
      generalize Int.log 10 (m : ℚ) = x at *
      push_cast
      rw [mul_assoc, ← zpow_natCast, ← zpow_add₀ (by norm_num), show ((k - x.toNat : ℕ) : ℤ) + (x - k) = 0 by omega, zpow_zero, mul_one])] at this
    rw [he] at this ⊢
    have hm : c ≠ '-' := by
      rintro rfl
      exact absurd hc (by decide)
    rw [readDecimal?, if_neg hm]
    exact this

/-- What the text of a number that is not negative says: within half a unit of the last digit. -/
theorem readDecimal_prec (k : Nat) (q : ℚ) (hq : 0 ≤ q) :
    ∃ d, readDecimal? (doubleTextPrec k (.fin q)) = some d ∧
      ((q = 0 ∧ d = 0) ∨ ∃ e : Int, |d - q| ≤ 10 ^ e / 2 ∧ (10 : ℚ) ^ (e + k) ≤ q ∧ q < 10 ^ (e + k + 1)) := by
  unfold doubleTextPrec
  simp only
  by_cases h0 : q = 0
  · rw [if_pos h0]
    exact ⟨0, by decide +kernel, .inl ⟨h0, rfl⟩⟩
  · have hq : 0 < q := lt_of_le_of_ne hq (Ne.symm h0)
    rw [if_neg h0, if_neg (not_lt.mpr hq.le)]
    obtain ⟨c, cs, he, hc⟩ := posTextPrec_head k q
    have := readUnsigned_posTextPrec k q hq
    obtain ⟨-, -, e, h1, h2, h3⟩ := sigDigits_spec k q hq
    refine ⟨sigValue k q, ?_, .inr ⟨e, h1, h2, h3⟩⟩
    rw [he] at this ⊢
    have hm : c ≠ '-' := by
      rintro rfl
      exact absurd hc (by decide)
    rw [readDecimal?, if_neg hm]
    exact this

theorem prec_no_sep {c : Char} (h0 : c.isDigit = false) (h1 : c ≠ '.') (h2 : c ≠ 'e') (h3 : c ≠ '-') (h4 : c ≠ '+')
    (k : Nat) (q : ℚ) : c ∉ doubleTextPrec k (.fin q) := by
  have hn : ∀ n, c ∉ natText n := fun n => not_mem_digits h0 (natText_digits n)
  have hrep : ∀ n, c ∉ List.replicate n '0' := by
    intro n h
    have := List.eq_of_mem_replicate h
    subst this
    simp at h0
  have hfrac : ∀ l : List Char, c ∉ l → c ∉ fracText l := by
    intro l hl h
    rcases fracText_mem h with h | h
    · exact h1 h
    · exact hl h
  have hp : ∀ q, c ∉ posTextPrec k q := by
    intro q
    unfold posTextPrec
    simp only
    split_ifs
    · intro h
      rcases List.mem_append.mp h with h | h
      · exact hn _ (List.mem_of_mem_take h)
      · exact hfrac _ (fun h => hn _ (List.mem_of_mem_drop h)) h
    · intro h
      rcases List.mem_cons.mp h with h | h
      · subst h; simp at h0
      · refine hfrac _ (fun h => ?_) h
        rcases List.mem_append.mp h with h | h
        · exact hrep _ h
        · exact hn _ h
    · intro h
      rcases List.mem_append.mp h with h | h
      · rcases List.mem_append.mp h with h | h
        · exact hn _ (List.mem_of_mem_take h)
        · exact hfrac _ (fun h => hn _ (List.mem_of_mem_drop h)) h
      · unfold expText at h
        rcases List.mem_cons.mp h with h | h
        · exact h2 h
        · rcases List.mem_cons.mp h with h | h
          · split_ifs at h
            · exact h3 h
            · exact h4 h
          · rcases List.mem_append.mp h with h | h
            · exact hrep _ h
            · exact hn _ h
  unfold doubleTextPrec
  simp only
  split_ifs
  · intro h
    have := List.mem_singleton.mp h
    subst this
    simp at h0
  · intro h
    rcases List.mem_cons.mp h with h | h
    · exact h3 h
    · exact hp _ h
  · exact hp _

theorem int_no_sep {c : Char} (h0 : c.isDigit = false) (h3 : c ≠ '-') (n : Int) : c ∉ intText n := by
  have hn : ∀ n, c ∉ natText n := fun n => not_mem_digits h0 (natText_digits n)
  unfold intText
  split_ifs
  · intro h
    rcases List.mem_cons.mp h with h | h
    · exact h3 h
    · exact hn _ h
  · exact hn _

/-- With five digits after the first one the text is that of the default precision. -/
theorem doubleTextPrec_five (x : F64) : doubleTextPrec 5 x = doubleText x := by
  have hs : ∀ q, sigDigits 5 q = sixDigits q := by
    intro q
    unfold sigDigits sixDigits
    norm_num
  have hp : ∀ q, posTextPrec 5 q = posText q := by
    intro q
    unfold posTextPrec posText
    rw [hs]
    norm_num
  unfold doubleTextPrec doubleText
  cases x <;> simp only [hp]

end Verif
