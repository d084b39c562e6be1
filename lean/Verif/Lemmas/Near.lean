import Verif.Lemmas.F64
import Verif.Spec.Peak
import Mathlib.Tactic.Positivity
import Mathlib.Tactic.NormNum
import Mathlib.Tactic.Linarith
import Mathlib.Tactic.FieldSimp
import Mathlib.Tactic.Ring

/-! # Results of a few roundings -/

namespace Verif

open Verif.Spec

/-- `a` may be `p ≥ 0` after `k` roundings. -/
def Near (k : ℕ) (a : F64) (p : ℚ) : Prop :=
  ∃ v, a = .fin v ∧ p * (1 - 1 / 2 ^ 53) ^ k ≤ v ∧ v ≤ p * (1 + 1 / 2 ^ 53) ^ k

/-- Zero, or far from overflow and underflow. -/
def Mid (p : ℚ) : Prop := p = 0 ∨ ((2 : ℚ) ^ (-300 : ℤ) ≤ p ∧ p ≤ 2 ^ (300 : ℤ))

theorem Mid.nonneg {p : ℚ} (h : Mid p) : 0 ≤ p := by
  rcases h with h | h
  · exact h.ge
  · exact (two_zpow_pos _).le.trans h.1

theorem near_exact (v : ℚ) : Near 0 (.fin v) v := ⟨v, rfl, by simp, by simp⟩

theorem low_pow (k : ℕ) (hk : k ≤ 8) : (1 : ℚ) / 2 ≤ (1 - 1 / 2 ^ 53) ^ k := by
  refine le_trans (by norm_num) (pow_le_pow_of_le_one (by norm_num) (by norm_num) hk)

theorem high_pow (k : ℕ) (hk : k ≤ 8) : (1 + 1 / 2 ^ 53 : ℚ) ^ k ≤ 2 := by
  refine le_trans (pow_le_pow_right₀ (by norm_num) hk) (by norm_num)

theorem near_rnd (k : ℕ) (hk : k ≤ 8) (p v : ℚ) (hp : Mid p) (h1 : p * (1 - 1 / 2 ^ 53) ^ k ≤ v)
    (h2 : v ≤ p * (1 + 1 / 2 ^ 53) ^ k) : Near (k + 1) (F64.ofRat v) p := by
  rcases hp with rfl | ⟨ha, hb⟩
  · have : v = 0 := by linarith
    subst this
    refine ⟨0, ?_, by simp, by simp⟩
    have := F64.ofRat_int (n := 0) (by norm_num)
    simpa using this
  · have hp0 : 0 < p := lt_of_lt_of_le (two_zpow_pos _) ha
    have e1 : p * (1 / 2) ≤ v := le_trans (mul_le_mul_of_nonneg_left (low_pow k hk) hp0.le) h1
    have e2 : v ≤ p * 2 := le_trans h2 (mul_le_mul_of_nonneg_left (high_pow k hk) hp0.le)
    have hv : 0 < v := lt_of_lt_of_le (by positivity) e1
    have hbig : |v| ≤ (2 : ℚ) ^ (1000 : ℤ) := by
      rw [abs_of_pos hv]
      calc v ≤ p * 2 := e2
        _ ≤ 2 ^ (300 : ℤ) * 2 ^ (1 : ℤ) := by
          refine mul_le_mul hb (by norm_num) (by norm_num) (two_zpow_pos _).le
        _ = 2 ^ (301 : ℤ) := by rw [← zpow_add₀ (by norm_num)]; norm_num
        _ ≤ 2 ^ (1000 : ℤ) := zpow_le_zpow_right₀ (by norm_num) (by norm_num)
    have hsmall : (2 : ℚ) ^ (-1022 : ℤ) ≤ |v| := by
      rw [abs_of_pos hv]
      calc (2 : ℚ) ^ (-1022 : ℤ) ≤ 2 ^ (-301 : ℤ) := zpow_le_zpow_right₀ (by norm_num) (by norm_num)
        _ = 2 ^ (-300 : ℤ) * 2 ^ (-1 : ℤ) := by rw [← zpow_add₀ (by norm_num)]; norm_num
        _ ≤ p * (1 / 2) := mul_le_mul ha (by norm_num) (by norm_num) hp0.le
        _ ≤ v := e1
    have herr := abs_rndQ_sub_le hsmall
    rw [abs_of_pos hv, show (2 : ℚ) ^ (-53 : ℤ) = 1 / 2 ^ 53 by norm_num] at herr
    obtain ⟨c1, c2⟩ := abs_le.mp herr
    refine ⟨rndQ v, F64.ofRat_fin hbig, ?_, ?_⟩
    · rw [pow_succ, ← mul_assoc]
      refine le_trans (mul_le_mul_of_nonneg_right h1 (by norm_num)) ?_
      linarith
    · rw [pow_succ, ← mul_assoc]
      refine le_trans ?_ (mul_le_mul_of_nonneg_right h2 (by norm_num))
      linarith

theorem near_mul {j k : ℕ} {a b : F64} {p q : ℚ} (ha : Near j a p) (hb : Near k b q) (hp : 0 ≤ p) (hq : 0 ≤ q) (hm : Mid (p * q))
    (hjk : j + k ≤ 8) : Near (j + k + 1) (F64.mul a b) (p * q) := by
  obtain ⟨v, rfl, v1, v2⟩ := ha
  obtain ⟨w, rfl, w1, w2⟩ := hb
  have l1 : (0 : ℚ) ≤ 1 - 1 / 2 ^ 53 := by norm_num
  have hv : 0 ≤ v := le_trans (by positivity) v1
  have hw : 0 ≤ w := le_trans (by positivity) w1
  refine near_rnd (j + k) hjk _ _ hm ?_ ?_
  · calc p * q * (1 - 1 / 2 ^ 53) ^ (j + k) = (p * (1 - 1 / 2 ^ 53) ^ j) * (q * (1 - 1 / 2 ^ 53) ^ k) := by rw [pow_add]; ring
      _ ≤ v * w := mul_le_mul v1 w1 (by positivity) hv
  · calc v * w ≤ (p * (1 + 1 / 2 ^ 53) ^ j) * (q * (1 + 1 / 2 ^ 53) ^ k) := mul_le_mul v2 w2 hw (by positivity)
      _ = p * q * (1 + 1 / 2 ^ 53) ^ (j + k) := by rw [pow_add]; ring

theorem near_div {k : ℕ} {a : F64} {p t : ℚ} (ha : Near k a p) (ht : 0 < t) (hm : Mid (p / t)) (hk : k ≤ 8) :
    Near (k + 1) (F64.div a (.fin t)) (p / t) := by
  obtain ⟨v, rfl, v1, v2⟩ := ha
  show Near (k + 1) (if t = 0 then _ else F64.ofRat (v / t)) _
  rw [if_neg ht.ne']
  refine near_rnd k hk _ _ hm ?_ ?_
  · rw [div_mul_eq_mul_div]
    exact div_le_div_of_nonneg_right v1 ht.le
  · rw [div_mul_eq_mul_div]
    exact div_le_div_of_nonneg_right v2 ht.le

theorem near_mono {j k : ℕ} {a : F64} {p : ℚ} (h : Near j a p) (hp : 0 ≤ p) (hjk : j ≤ k) : Near k a p := by
  obtain ⟨v, rfl, v1, v2⟩ := h
  refine ⟨v, rfl, le_trans (mul_le_mul_of_nonneg_left (pow_le_pow_of_le_one (by norm_num) (by norm_num) hjk) hp) v1,
    le_trans v2 (mul_le_mul_of_nonneg_left (pow_le_pow_right₀ (by norm_num) hjk) hp)⟩

/-- Three roundings. -/
theorem near_three {k : ℕ} {a : F64} {p : ℚ} (h : Near k a p) (hp : 0 ≤ p) (hk : k ≤ 3) :
    ∃ v, a = .fin v ∧ p * (1 - 1 / 2 ^ 51) ≤ v ∧ v ≤ p * (1 + 1 / 2 ^ 51) := by
  obtain ⟨v, rfl, v1, v2⟩ := near_mono h hp hk
  exact ⟨v, rfl, le_trans (mul_le_mul_of_nonneg_left (by norm_num) hp) v1, le_trans v2 (mul_le_mul_of_nonneg_left (by norm_num) hp)⟩

theorem near_approx {k : ℕ} {a : F64} {p : ℚ} (h : Near k a p) (hp : 0 ≤ p) (hk : k ≤ 3) : Approx (1 / 2 ^ 51) a p := by
  obtain ⟨v, hv, v1, v2⟩ := near_three h hp hk
  refine ⟨v, hv, ?_⟩
  rw [abs_of_nonneg hp, abs_le]
  constructor <;> linarith

end Verif
