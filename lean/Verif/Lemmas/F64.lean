import Verif.Model.F64
import Mathlib.Tactic.Linarith
import Mathlib.Tactic.Positivity
import Mathlib.Tactic.NormNum
import Mathlib.Tactic.Ring
import Mathlib.Tactic.FieldSimp

/-! Lemmas about binary64 rounding: monotonicity, exactness, error bound. -/

namespace Verif

theorem roundNE_mono {x y : ℚ} (h : x ≤ y) : roundNE x ≤ roundNE y := by
  have hf : ⌊x⌋ ≤ ⌊y⌋ := Int.floor_le_floor h
  have hx0 := Int.floor_le x
  have hx1 := Int.lt_floor_add_one x
  have hy0 := Int.floor_le y
  have hy1 := Int.lt_floor_add_one y
  rcases hf.eq_or_lt with he | hlt
  · unfold roundNE
    simp only [he]
    have he' : (⌊x⌋ : ℚ) = ⌊y⌋ := by exact_mod_cast he
    split_ifs <;> first | omega | (exfalso; linarith)
  · unfold roundNE
    simp only
    split_ifs <;> omega

theorem roundNE_int (n : ℤ) : roundNE (n : ℚ) = n := by
  unfold roundNE
  simp

theorem abs_roundNE_sub_le (x : ℚ) : |(roundNE x : ℚ) - x| ≤ 1 / 2 := by
  have hx0 := Int.floor_le x
  have hx1 := Int.lt_floor_add_one x
  unfold roundNE
  simp only
  split_ifs <;> rw [abs_le] <;> push_cast <;> constructor <;> linarith

theorem roundNE_neg (x : ℚ) : roundNE (-x) = -roundNE x := by
  by_cases hi : (⌊x⌋ : ℚ) = x
  · rw [← hi, ← Int.cast_neg, roundNE_int, roundNE_int]
  · have hx0 : (⌊x⌋ : ℚ) < x := lt_of_le_of_ne (Int.floor_le x) hi
    have hx1 := Int.lt_floor_add_one x
    have hneg : ⌊-x⌋ = -⌊x⌋ - 1 := by
      rw [Int.floor_eq_iff]
      push_cast
      constructor <;> linarith
    unfold roundNE
    simp only [hneg]
    push_cast
    split_ifs <;> first | omega | (exfalso; linarith)

theorem two_zpow_pos (e : ℤ) : (0 : ℚ) < 2 ^ e := zpow_pos (by norm_num) e

theorem ulpExp_neg (q : ℚ) : ulpExp (-q) = ulpExp q := by simp [ulpExp]

theorem rndQ_neg (q : ℚ) : rndQ (-q) = -rndQ q := by
  unfold rndQ
  by_cases h : q = 0
  · simp [h]
  · simp only [h, neg_eq_zero, if_false, ulpExp_neg]
    rw [neg_div, roundNE_neg]
    push_cast
    ring

@[simp] theorem rndQ_zero : rndQ 0 = 0 := by simp [rndQ]

/-- The grid exponent grows with the magnitude. -/
theorem ulpExp_mono {p q : ℚ} (hp : 0 < p) (h : p ≤ q) : ulpExp p ≤ ulpExp q := by
  unfold ulpExp
  rw [abs_of_pos hp, abs_of_pos (hp.trans_le h)]
  have := Int.log_mono_right (b := 2) hp h
  omega

/-- Rounding a positive number below `2^k` (k on or above the grid) does not exceed `2^k`. -/
theorem rndQ_le_two_zpow {q : ℚ} (hq : 0 < q) {k : ℤ} (hk : ulpExp q ≤ k) (h : q ≤ 2 ^ k) :
    rndQ q ≤ 2 ^ k := by
  unfold rndQ
  rw [if_neg hq.ne']
  have hu := two_zpow_pos (ulpExp q)
  obtain ⟨n, hn⟩ := Int.le.dest hk
  have hpow : (2 : ℚ) ^ k = ((2 ^ n : ℤ) : ℚ) * 2 ^ ulpExp q := by
    rw [← hn, zpow_add₀ (by norm_num)]
    push_cast
    rw [zpow_natCast]
    ring
  have hle : q / 2 ^ ulpExp q ≤ ((2 ^ n : ℤ) : ℚ) := by
    rw [div_le_iff₀ hu, ← hpow]; exact h
  have := roundNE_mono hle
  rw [roundNE_int] at this
  rw [hpow]
  exact mul_le_mul_of_nonneg_right (by exact_mod_cast this) hu.le

theorem two_zpow_le_rndQ {q : ℚ} (hq : 0 < q) {k : ℤ} (hk : ulpExp q ≤ k) (h : 2 ^ k ≤ q) :
    (2 : ℚ) ^ k ≤ rndQ q := by
  unfold rndQ
  rw [if_neg hq.ne']
  have hu := two_zpow_pos (ulpExp q)
  obtain ⟨n, hn⟩ := Int.le.dest hk
  have hpow : (2 : ℚ) ^ k = ((2 ^ n : ℤ) : ℚ) * 2 ^ ulpExp q := by
    rw [← hn, zpow_add₀ (by norm_num)]
    push_cast
    rw [zpow_natCast]
    ring
  have hle : ((2 ^ n : ℤ) : ℚ) ≤ q / 2 ^ ulpExp q := by
    rw [le_div_iff₀ hu, ← hpow]; exact h
  have := roundNE_mono hle
  rw [roundNE_int] at this
  rw [hpow]
  exact mul_le_mul_of_nonneg_right (by exact_mod_cast this) hu.le

theorem rndQ_nonneg {q : ℚ} (hq : 0 ≤ q) : 0 ≤ rndQ q := by
  unfold rndQ
  split_ifs with h
  · exact le_rfl
  · have hu := two_zpow_pos (ulpExp q)
    have h0 : (0 : ℚ) ≤ q / 2 ^ ulpExp q := by positivity
    have := roundNE_mono h0
    have hz : roundNE 0 = 0 := by exact_mod_cast roundNE_int 0
    rw [hz] at this
    have h1 : (0 : ℚ) ≤ (roundNE (q / 2 ^ ulpExp q) : ℚ) := by exact_mod_cast this
    positivity

theorem rndQ_mono_pos {p q : ℚ} (hp : 0 < p) (h : p ≤ q) : rndQ p ≤ rndQ q := by
  have hq := hp.trans_le h
  rcases (ulpExp_mono hp h).eq_or_lt with he | hlt
  · unfold rndQ
    rw [if_neg hp.ne', if_neg hq.ne', he]
    have hu := two_zpow_pos (ulpExp q)
    have := roundNE_mono (div_le_div_of_nonneg_right h hu.le)
    exact mul_le_mul_of_nonneg_right (by exact_mod_cast this) hu.le
  · -- the grid changes between p and q: a power of two separates them
    have hlogq : ulpExp q = Int.log 2 q - 52 := by
      unfold ulpExp at *
      rw [abs_of_pos hq] at *
      rw [abs_of_pos hp] at *
      omega
    have hlogp : Int.log 2 p + 1 ≤ Int.log 2 q := by
      unfold ulpExp at *
      rw [abs_of_pos hq] at *
      rw [abs_of_pos hp] at *
      omega
    have hk : (2 : ℚ) ^ Int.log 2 q ≤ q := by
      exact_mod_cast Int.zpow_log_le_self (b := 2) (by norm_num) hq
    have hp2 : p ≤ 2 ^ Int.log 2 q := by
      have h1 : p < (2 : ℚ) ^ (Int.log 2 p + 1) := by
        exact_mod_cast Int.lt_zpow_succ_log_self (b := 2) (by norm_num) p
      have h2 : (2 : ℚ) ^ (Int.log 2 p + 1) ≤ 2 ^ Int.log 2 q :=
        zpow_le_zpow_right₀ (by norm_num) hlogp
      linarith
    have h1 : rndQ p ≤ 2 ^ Int.log 2 q := rndQ_le_two_zpow hp (by omega) hp2
    have h2 : (2 : ℚ) ^ Int.log 2 q ≤ rndQ q := two_zpow_le_rndQ hq (by omega) hk
    exact h1.trans h2

/-- Rounding to binary64 is monotone. -/
theorem rndQ_mono {p q : ℚ} (h : p ≤ q) : rndQ p ≤ rndQ q := by
  rcases lt_trichotomy p 0 with hp | hp | hp
  · rcases lt_or_ge q 0 with hq | hq
    · have := rndQ_mono_pos (p := -q) (q := -p) (by linarith) (by linarith)
      rw [rndQ_neg, rndQ_neg] at this
      linarith
    · have h1 := rndQ_nonneg hq
      have h2 := rndQ_nonneg (q := -p) (by linarith)
      rw [rndQ_neg] at h2
      linarith
  · subst hp
    rw [rndQ_zero]
    exact rndQ_nonneg h
  · exact rndQ_mono_pos hp h

/-- Numbers on the grid are not changed. -/
theorem rndQ_of_grid {q : ℚ} (m : ℤ) (e : ℤ) (hq : q = m * 2 ^ e) (he : -1074 ≤ e)
    (hm : |m| ≤ 2 ^ 53) : rndQ q = q := by
  by_cases h0 : q = 0
  · rw [h0, rndQ_zero]
  -- reduce to showing the grid exponent is at most e, or m = ±2^53
  have hm0 : m ≠ 0 := by rintro rfl; simp at hq; exact h0 hq
  have key : ∀ (m e : ℤ), q = m * 2 ^ e → -1074 ≤ e → |m| < 2 ^ 53 → rndQ q = q := by
    intro m e hq he hm
    have hu : ulpExp q ≤ e := by
      unfold ulpExp
      have habs : |q| < 2 ^ (e + 53) := by
        rw [hq, abs_mul, abs_of_pos (two_zpow_pos e), zpow_add₀ (by norm_num), mul_comm]
        have : (|(m : ℚ)|) < 2 ^ (53 : ℤ) := by
          rw [← Int.cast_abs]
          exact_mod_cast hm
        exact mul_lt_mul_of_pos_left this (two_zpow_pos e)
      have hpos : 0 < |q| := abs_pos.mpr h0
      have := (Int.lt_zpow_iff_log_lt (b := 2) (by norm_num) hpos (x := e + 53)).mp
        (by exact_mod_cast habs)
      omega
    obtain ⟨n, hn⟩ := Int.le.dest hu
    have hpow : (2 : ℚ) ^ e = ((2 ^ n : ℤ) : ℚ) * 2 ^ ulpExp q := by
      rw [← hn, zpow_add₀ (by norm_num)]
      push_cast
      rw [zpow_natCast]
      ring
    have hup := two_zpow_pos (ulpExp q)
    have hdiv : q / 2 ^ ulpExp q = ((m * 2 ^ n : ℤ) : ℚ) := by
      rw [div_eq_iff hup.ne']
      conv_lhs => rw [hq, hpow]
      push_cast
      ring
    unfold rndQ
    rw [if_neg h0, hdiv, roundNE_int, ← hdiv]
    field_simp
  rcases hm.lt_or_eq with hlt | heq
  · exact key m e hq he hlt
  · -- |m| = 2^53: shift the exponent
    rcases abs_choice m with hc | hc
    · refine key (2 ^ 52) (e + 1) ?_ (by omega) (by norm_num)
      rw [hq, zpow_add₀ (by norm_num)]
      have : (m : ℚ) = 2 ^ 53 := by exact_mod_cast (hc ▸ heq : m = 2 ^ 53)
      rw [this]; push_cast; ring
    · refine key (-2 ^ 52) (e + 1) ?_ (by omega) (by norm_num)
      rw [hq, zpow_add₀ (by norm_num)]
      have h' : m = -2 ^ 53 := by omega
      have : (m : ℚ) = -2 ^ 53 := by exact_mod_cast h'
      rw [this]; push_cast; ring

/-- Integers up to 2^53 are exact. -/
theorem rndQ_int {n : ℤ} (h : |n| ≤ 2 ^ 53) : rndQ (n : ℚ) = n :=
  rndQ_of_grid n 0 (by simp) (by norm_num) h

/-- Relative error of rounding a number in the normal range. -/
theorem abs_rndQ_sub_le {q : ℚ} (h : (2 : ℚ) ^ (-1022 : ℤ) ≤ |q|) :
    |rndQ q - q| ≤ |q| * 2 ^ (-53 : ℤ) := by
  have hpos : 0 < |q| := lt_of_lt_of_le (two_zpow_pos _) h
  have h0 : q ≠ 0 := abs_pos.mp hpos
  have hlog : -1022 ≤ Int.log 2 |q| := by
    have := (Int.zpow_le_iff_le_log (b := 2) (by norm_num) hpos (x := -1022)).mp (by exact_mod_cast h)
    exact this
  have hu : ulpExp q = Int.log 2 |q| - 52 := by unfold ulpExp; omega
  have hup := two_zpow_pos (ulpExp q)
  unfold rndQ
  rw [if_neg h0]
  have h1 := abs_roundNE_sub_le (q / 2 ^ ulpExp q)
  have h2 : (roundNE (q / 2 ^ ulpExp q) : ℚ) * 2 ^ ulpExp q - q =
      ((roundNE (q / 2 ^ ulpExp q) : ℚ) - q / 2 ^ ulpExp q) * 2 ^ ulpExp q := by
    field_simp
  rw [h2, abs_mul, abs_of_pos hup]
  have h3 : (2 : ℚ) ^ Int.log 2 |q| ≤ |q| := by
    exact_mod_cast Int.zpow_log_le_self (b := 2) (by norm_num) hpos
  have h4 : (2 : ℚ) ^ ulpExp q = 2 ^ Int.log 2 |q| * 2 ^ (-52 : ℤ) := by
    rw [hu, sub_eq_add_neg, zpow_add₀ (by norm_num)]
  have h5 : (2 : ℚ) ^ (-53 : ℤ) = 1 / 2 * 2 ^ (-52 : ℤ) := by norm_num
  calc |(roundNE (q / 2 ^ ulpExp q) : ℚ) - q / 2 ^ ulpExp q| * 2 ^ ulpExp q
      ≤ 1 / 2 * 2 ^ ulpExp q := mul_le_mul_of_nonneg_right h1 hup.le
    _ = 2 ^ Int.log 2 |q| * (1 / 2 * 2 ^ (-52 : ℤ)) := by rw [h4]; ring
    _ ≤ |q| * (1 / 2 * 2 ^ (-52 : ℤ)) := mul_le_mul_of_nonneg_right h3 (by positivity)
    _ = |q| * 2 ^ (-53 : ℤ) := by rw [h5]

/-- Evaluation of `rndQ` at a concrete positive number: exhibit the exponent of its binade. -/
theorem rndQ_eval {q : ℚ} (k : ℤ) (hk : -1022 ≤ k) (h1 : (2 : ℚ) ^ k ≤ q) (h2 : q < 2 ^ (k + 1)) :
    rndQ q = (roundNE (q / 2 ^ (k - 52)) : ℚ) * 2 ^ (k - 52) := by
  have hq : 0 < q := lt_of_lt_of_le (two_zpow_pos _) h1
  have hlog : Int.log 2 q = k := by
    have a := (Int.zpow_le_iff_le_log (b := 2) (by norm_num) hq (x := k)).mp (by exact_mod_cast h1)
    have b := (Int.lt_zpow_iff_log_lt (b := 2) (by norm_num) hq (x := k + 1)).mp
      (by exact_mod_cast h2)
    omega
  have hu : ulpExp q = k - 52 := by unfold ulpExp; rw [abs_of_pos hq, hlog]; omega
  unfold rndQ
  rw [if_neg hq.ne', hu]

namespace F64

theorem ofRat_eq_fin {q : ℚ} (h : |rndQ q| < (2 : ℚ) ^ (1024 : ℤ)) : ofRat q = .fin (rndQ q) := by
  unfold ofRat
  simp only
  rw [if_neg (not_le.mpr h)]

/-- No overflow for magnitudes up to 2^1000. -/
theorem ofRat_fin {q : ℚ} (h : |q| ≤ (2 : ℚ) ^ (1000 : ℤ)) : ofRat q = .fin (rndQ q) := by
  apply ofRat_eq_fin
  have hg : rndQ ((2 : ℚ) ^ (1000 : ℤ)) = 2 ^ (1000 : ℤ) :=
    rndQ_of_grid 1 1000 (by norm_num) (by norm_num) (by norm_num)
  have h1 := rndQ_mono (abs_le.mp h).2
  have h2 := rndQ_mono (abs_le.mp h).1
  rw [rndQ_neg, hg] at h2
  rw [hg] at h1
  calc |rndQ q| ≤ 2 ^ (1000 : ℤ) := abs_le.mpr ⟨h2, h1⟩
    _ < 2 ^ (1024 : ℤ) := zpow_lt_zpow_right₀ (by norm_num) (by norm_num)

theorem ofInt_exact {n : ℤ} (h : |n| ≤ 2 ^ 53) : ofInt n = .fin n := by
  unfold ofInt
  rw [ofRat_fin, rndQ_int h]
  rw [← Int.cast_abs]
  calc ((|n| : ℤ) : ℚ) ≤ ((2 ^ 53 : ℤ) : ℚ) := by exact_mod_cast h
    _ = 2 ^ (53 : ℤ) := by norm_num
    _ ≤ 2 ^ (1000 : ℤ) := zpow_le_zpow_right₀ (by norm_num) (by norm_num)

theorem ofRat_int {n : ℤ} (h : |n| ≤ 2 ^ 53) : ofRat (n : ℚ) = .fin n := ofInt_exact h

end F64
end Verif
