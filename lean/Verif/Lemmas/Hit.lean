import Verif.Lemmas.Bits
import Verif.Lemmas.F64

/-! Lemmas about the hit constructors. -/

namespace Verif

theorem F64_25 : F64.ofRat 25 = .fin 25 := by
  have := F64.ofRat_int (n := 25) (by norm_num)
  exact_mod_cast this

theorem F64_4e7 : F64.ofRat 40000000 = .fin 40000000 := by
  have := F64.ofRat_int (n := 40000000) (by norm_num)
  exact_mod_cast this

/-- Comparing a rounded integer with a threshold of at most 53 bits is comparing the integers. -/
theorem F64_le_ofInt_iff (k n : ℤ) (hk : |k| ≤ 2 ^ 53) (hn0 : 0 ≤ n) (hn : n < 2 ^ 64) :
    F64.le (.fin k) (F64.ofInt n) = decide (k ≤ n) := by
  unfold F64.ofInt
  have hfin : F64.ofRat n = .fin (rndQ n) := by
    apply F64.ofRat_fin
    rw [abs_of_nonneg (by exact_mod_cast hn0)]
    have h1 : (n : ℚ) ≤ ((2 ^ 64 : ℤ) : ℚ) := by exact_mod_cast hn.le
    have h2 : ((2 ^ 64 : ℤ) : ℚ) = 2 ^ (64 : ℤ) := by norm_num
    have h3 : (2 : ℚ) ^ (64 : ℤ) ≤ 2 ^ (1000 : ℤ) :=
      zpow_le_zpow_right₀ (by norm_num) (by norm_num)
    exact h1.trans (h2.le.trans h3)
  rw [hfin]
  simp only [F64.le, decide_eq_decide]
  constructor
  · intro h
    by_contra hlt
    have hn1 : n ≤ k - 1 := by omega
    have h0 : |n| ≤ 2 ^ 53 := by
      rw [abs_of_nonneg hn0]
      have := le_abs_self k
      omega
    rw [rndQ_int h0] at h
    have : k ≤ n := by exact_mod_cast h
    omega
  · intro h
    have := rndQ_mono (p := (k : ℚ)) (q := (n : ℚ)) (by exact_mod_cast h)
    rwa [rndQ_int hk] at this

theorem fixSpider_eq (s gdc : U64) :
    fixSpider s gdc = if 40000000 ≤ (s - gdc).toNat then s - 1073741824#64 else s := by
  unfold fixSpider
  rw [F64_4e7]
  have h := F64_le_ofInt_iff 40000000 ((s - gdc).toNat) (by norm_num) (by omega)
    (by have := (s - gdc).isLt; omega)
  have hcast : ((40000000 : ℤ) : ℚ) = 40000000 := by norm_num
  rw [hcast] at h
  rw [h]
  simp only [decide_eq_true_eq]
  congr 1
  simp only [eq_iff_iff]
  omega

theorem extendSpider_toNat (r : U32) (gdc : U64) (hr : r.toNat < 2 ^ 30) :
    (extendSpider r gdc).toNat =
      ((if r.toNat < gdc.toNat % 2 ^ 30 then gdc.toNat / 2 ^ 30 % 2 ^ 18 + 1
        else gdc.toNat / 2 ^ 30 % 2 ^ 18) % 2 ^ 18) * 2 ^ 30 + r.toNat := by
  unfold extendSpider
  simp only
  have hlt : (r.setWidth 64 < gdc &&& 0x3FFFFFFF#64) ↔ r.toNat < gdc.toNat % 2 ^ 30 := by
    rw [BitVec.lt_def]; bits_to_nat; omega
  rw [BitVec.toNat_or, or_eq_add _ _ 30]
  · by_cases hc : r.toNat < gdc.toNat % 2 ^ 30
    · rw [if_pos (hlt.mpr hc), if_pos hc]; bits_to_nat; simp only [Nat.reducePow] at *; omega
    · rw [if_neg (fun h => hc (hlt.mp h)), if_neg hc]; bits_to_nat; simp only [Nat.reducePow] at *; omega
  · bits_to_nat; omega
  · bits_to_nat; omega

/-- 25E-6 as a double. -/
theorem F64_25em6 : F64.ofRat (25 / 1000000) = .fin (7378697629483821 / 295147905179352825856) := by
  rw [F64.ofRat_fin]
  · rw [rndQ_eval (-16) (by norm_num) (by norm_num) (by norm_num)]
    have : roundNE (25 / 1000000 / 2 ^ ((-16 : ℤ) - 52)) = 7378697629483821 := by
      have hf : ⌊(25 / 1000000 / 2 ^ ((-16 : ℤ) - 52) : ℚ)⌋ = 7378697629483820 := by
        rw [Int.floor_eq_iff]; norm_num
      unfold roundNE
      rw [hf]
      norm_num
    rw [this]
    norm_num
  · rw [abs_of_pos (by norm_num)]
    calc (25 / 1000000 : ℚ) ≤ 2 ^ (0 : ℤ) := by norm_num
      _ ≤ 2 ^ (1000 : ℤ) := zpow_le_zpow_right₀ (by norm_num) (by norm_num)

/-- 16.67 as a double. -/
theorem F64_1667 : F64.ofRat (1667 / 100) = .fin (1173046965441659 / 70368744177664) := by
  rw [F64.ofRat_fin]
  · rw [rndQ_eval 4 (by norm_num) (by norm_num) (by norm_num)]
    have : roundNE (1667 / 100 / 2 ^ ((4 : ℤ) - 52)) = 4692187861766636 := by
      have hf : ⌊(1667 / 100 / 2 ^ ((4 : ℤ) - 52) : ℚ)⌋ = 4692187861766635 := by
        rw [Int.floor_eq_iff]; norm_num
      unfold roundNE
      rw [hf]
      norm_num
    rw [this]
    norm_num
  · rw [abs_of_pos (by norm_num)]
    calc (1667 / 100 : ℚ) ≤ 2 ^ (5 : ℤ) := by norm_num
      _ ≤ 2 ^ (1000 : ℤ) := zpow_le_zpow_right₀ (by norm_num) (by norm_num)

theorem rndQ_666800 : rndQ (666800 * (7378697629483821 / 295147905179352825856)) =
    1173046965441659 / 70368744177664 := by
  rw [rndQ_eval 4 (by norm_num) (by norm_num) (by norm_num)]
  have : roundNE (666800 * (7378697629483821 / 295147905179352825856) / 2 ^ ((4 : ℤ) - 52)) =
      4692187861766636 := by
    have hf : ⌊(666800 * (7378697629483821 / 295147905179352825856) / 2 ^ ((4 : ℤ) - 52) : ℚ)⌋ =
        4692187861766635 := by
      rw [Int.floor_eq_iff]; norm_num
    unfold roundNE
    rw [hf]
    norm_num
  rw [this]
  norm_num

/-- The loop condition in `double` arithmetic is the integer comparison with 666800. -/
theorem tofTooLarge_iff (t : U32) : tofTooLarge t = true ↔ 666800 < t.toNat := by
  have ht := t.isLt
  unfold tofTooLarge
  have hex : F64.ofInt (t.toNat : ℤ) = .fin (t.toNat : ℤ) := F64.ofInt_exact (by
    rw [abs_of_nonneg (by omega)]; omega)
  rw [hex, F64_25em6, F64_1667]
  simp only [F64.mul]
  rw [F64.ofRat_fin]
  · simp only [F64.lt, decide_eq_true_eq]
    constructor
    · intro h
      by_contra hle
      have hle' : ((t.toNat : ℤ) : ℚ) ≤ 666800 := by
        have : (t.toNat : ℤ) ≤ 666800 := by omega
        exact_mod_cast this
      have := rndQ_mono (p := ((t.toNat : ℤ) : ℚ) * (7378697629483821 / 295147905179352825856))
        (q := 666800 * (7378697629483821 / 295147905179352825856))
        (mul_le_mul_of_nonneg_right hle' (by norm_num))
      rw [rndQ_666800] at this
      exact absurd h (not_lt.mpr this)
    · intro h
      have h' : (666801 : ℚ) ≤ ((t.toNat : ℤ) : ℚ) := by
        have : (666801 : ℤ) ≤ (t.toNat : ℤ) := by omega
        exact_mod_cast this
      have h2 := rndQ_mono (p := (4692187861766637 : ℤ) * 2 ^ (-48 : ℤ))
        (q := ((t.toNat : ℤ) : ℚ) * (7378697629483821 / 295147905179352825856)) (by
          refine le_trans ?_ (mul_le_mul_of_nonneg_right h' (by norm_num))
          norm_num)
      rw [rndQ_of_grid 4692187861766637 (-48) rfl (by norm_num) (by norm_num)] at h2
      refine lt_of_lt_of_le ?_ h2
      norm_num
  · rw [abs_of_nonneg (by positivity)]
    have h1 : ((t.toNat : ℤ) : ℚ) ≤ 2 ^ (32 : ℤ) := by
      have : (t.toNat : ℤ) ≤ 2 ^ 32 := by omega
      have h2 : ((t.toNat : ℤ) : ℚ) ≤ ((2 ^ 32 : ℤ) : ℚ) := by exact_mod_cast this
      refine h2.trans ?_
      norm_num
    calc ((t.toNat : ℤ) : ℚ) * (7378697629483821 / 295147905179352825856)
        ≤ 2 ^ (32 : ℤ) * 1 := mul_le_mul h1 (by norm_num) (by norm_num) (by norm_num)
      _ = 2 ^ (32 : ℤ) := by ring
      _ ≤ 2 ^ (1000 : ℤ) := zpow_le_zpow_right₀ (by norm_num) (by norm_num)

/-- What the folding loop computes, given enough rounds. -/
theorem foldTof_spec (n : Nat) (t : U32) (hn : t.toNat ≤ n) :
    ∃ r : U32, foldTof n t = some r ∧ r.toNat ≤ 666800 ∧ r.toNat ≤ t.toNat ∧
      r.toNat % 666667 = t.toNat % 666667 ∧ (t.toNat ≤ 666800 → r = t) := by
  induction n generalizing t with
  | zero =>
    have h : tofTooLarge t = false := by
      rw [Bool.eq_false_iff, Ne, tofTooLarge_iff]; omega
    exact ⟨t, by simp [foldTof, h], by omega, le_rfl, rfl, fun _ => rfl⟩
  | succ n ih =>
    by_cases h : tofTooLarge t = true
    · have hlt := (tofTooLarge_iff t).mp h
      have ht := t.isLt
      have hsub : (t - 666667#32).toNat = t.toNat - 666667 := by
        rw [BitVec.toNat_sub]
        simp only [BitVec.toNat_ofNat]
        omega
      obtain ⟨r, h1, h2, h3, h4, _⟩ := ih (t - 666667#32) (by omega)
      refine ⟨r, by simp [foldTof, h, h1], h2, by omega, by omega, fun hle => by omega⟩
    · have h' : tofTooLarge t = false := by simpa using h
      have hle : ¬ 666800 < t.toNat := fun hc => h ((tofTooLarge_iff t).mpr hc)
      exact ⟨t, by simp [foldTof, h'], by omega, le_rfl, rfl, fun _ => rfl⟩

/-- The loop of the constructor has ended after 2^32 rounds. -/
theorem foldTof_isSome (t : U32) : (foldTof (2 ^ 32) t).isSome := by
  obtain ⟨r, h, _⟩ := foldTof_spec (2 ^ 32) t (by have := t.isLt; omega)
  rw [h]
  rfl

theorem hitGdc_spidertime (w tdc gdc : U64) (chip : Int) :
    (hitGdc w tdc gdc chip).spidertime = fixSpider (extendSpider (rawSpider w) gdc) gdc := rfl

theorem hitGdc_tof (w tdc gdc : U64) (chip : Int) :
    (hitGdc w tdc gdc chip).tof = foldTof (2 ^ 32) (rawTof (hitGdc w tdc gdc chip).spidertime tdc) := by
  simp only [hitGdc]

theorem add_0x400000_toNat (ts : U64) (hr : ts.toNat < 2^30) : (ts + 0x400000#64).toNat = ts.toNat + 0x400000 := by
  have h2 : (0x400000#64 : U64).toNat = 4194304 := by decide
  rw [BitVec.toNat_add, h2, Nat.mod_eq_of_lt (by omega)]
theorem extendStamp_toNat (ts tdc : U64) (hr : ts.toNat < 2 ^ 30) :
    (extendStamp ts tdc).toNat = ts.toNat + if ts.toNat + 0x400000 < tdc.toNat then 2 ^ 30 else 0 := by
  have h30 : (0x40000000#64 : U64).toNat = 1073741824 := by decide
  unfold extendStamp
  simp only [BitVec.lt_def, add_0x400000_toNat ts hr]
  generalize ts.toNat + 0x400000 = k
  split_ifs
  · rw [BitVec.toNat_or, Nat.or_comm, h30, or_eq_add 1073741824 ts.toNat 30 (by norm_num) hr]
    omega
  · rw [Nat.add_zero]

theorem hitTdc_spidertime (w tdc : U64) (chip : Int) :
    (hitTdc w tdc chip).spidertime = extendStamp (rawStamp w) tdc := rfl

theorem hitTdc_tof (w tdc : U64) (chip : Int) :
    (hitTdc w tdc chip).tof = if tdc.toNat ≤ (hitTdc w tdc chip).spidertime.toNat then
      some (((hitTdc w tdc chip).spidertime - tdc).setWidth 32) else none := by
  simp only [hitTdc, BitVec.le_def]

theorem F64_ns_exact (n : ℤ) (h0 : 0 ≤ n) (h : n < 2 ^ 48) :
    F64.mul (F64.ofInt n) (F64.ofRat 25) = .fin (25 * n : ℤ) := by
  rw [F64.ofInt_exact (by rw [abs_of_nonneg h0]; omega), F64_25]
  simp only [F64.mul]
  have : (n : ℚ) * 25 = ((25 * n : ℤ) : ℚ) := by push_cast; ring
  rw [this, F64.ofRat_int]
  rw [abs_of_nonneg (by omega)]
  omega

end Verif
