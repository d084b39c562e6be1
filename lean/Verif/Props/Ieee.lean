import Verif.Spec.Ieee
import Verif.Model.Bench
import Verif.Model.FakeHits
import Verif.Lemmas.F64

/-! # C120: the arithmetic of the model is that of IEEE 754 binary64 -/

namespace Verif.Props

open Verif Verif.Spec

/-! ## Rounding -/

theorem roundNE_nearest (x : ℚ) (n : ℤ) : |(roundNE x : ℚ) - x| ≤ |(n : ℚ) - x| := by
  by_cases hn : n = roundNE x
  · rw [hn]
  · have h1 := abs_roundNE_sub_le x
    by_contra hlt
    push Not at hlt
    have h2 : |(n : ℚ) - roundNE x| < 1 := by
      calc |(n : ℚ) - roundNE x| = |((n : ℚ) - x) - (roundNE x - x)| := by ring_nf
        _ ≤ |(n : ℚ) - x| + |(roundNE x : ℚ) - x| := abs_sub _ _
        _ < 1 := by linarith
    have h3 : |n - roundNE x| < 1 := by
      have : ((|n - roundNE x| : ℤ) : ℚ) < 1 := by push_cast; exact h2
      exact_mod_cast this
    apply hn
    rw [Int.abs_lt_one_iff] at h3
    omega

/-- Of two integers equally near the even one is taken. -/
theorem roundNE_tie (x : ℚ) (n : ℤ) (hn : n ≠ roundNE x) (h : |(roundNE x : ℚ) - x| = |(n : ℚ) - x|) :
    roundNE x % 2 = 0 ∧ (n = roundNE x + 1 ∨ n = roundNE x - 1) ∧ ⌊x⌋ ≤ n := by
  have h1 := abs_roundNE_sub_le x
  have h2 : |(n : ℚ) - roundNE x| ≤ 1 := by
    calc |(n : ℚ) - roundNE x| = |((n : ℚ) - x) - (roundNE x - x)| := by ring_nf
      _ ≤ |(n : ℚ) - x| + |(roundNE x : ℚ) - x| := abs_sub _ _
      _ ≤ 1 := by linarith
  have h3 : |n - roundNE x| ≤ 1 := by
    have : ((|n - roundNE x| : ℤ) : ℚ) ≤ 1 := by push_cast; exact h2
    exact_mod_cast this
  rw [abs_le] at h3
  have h4 : n = roundNE x + 1 ∨ n = roundNE x - 1 := by omega
  have hx0 := Int.floor_le x
  have hx1 := Int.lt_floor_add_one x
  have hr : (roundNE x = ⌊x⌋ ∧ x - ⌊x⌋ < 1 / 2) ∨ (roundNE x = ⌊x⌋ + 1 ∧ 1 / 2 < x - ⌊x⌋) ∨
      (x - ⌊x⌋ = 1 / 2 ∧ roundNE x % 2 = 0 ∧ (roundNE x = ⌊x⌋ ∨ roundNE x = ⌊x⌋ + 1)) := by
    unfold roundNE
    simp only
    split_ifs with c1 c2 c3
    · exact .inl ⟨rfl, c1⟩
    · exact .inr (.inl ⟨rfl, c2⟩)
    · exact .inr (.inr ⟨by linarith, c3, .inl rfl⟩)
    · exact .inr (.inr ⟨by linarith, by omega, .inr rfl⟩)
  have hq : ∀ a b : ℚ, |a| = |b| → a = b ∨ a = -b := fun a b e => abs_eq_abs.mp e
  rcases hr with ⟨e, hlt⟩ | ⟨e, hlt⟩ | ⟨he, hev, hor⟩
  · exfalso
    rw [e] at h h4
    rcases h4 with rfl | rfl <;> rcases hq _ _ h with h' | h' <;> push_cast at h' <;> linarith
  · exfalso
    rw [e] at h h4
    rcases h4 with rfl | rfl <;> rcases hq _ _ h with h' | h' <;> push_cast at h' <;> linarith
  · refine ⟨hev, h4, ?_⟩
    by_contra hlt
    have h5 : n = ⌊x⌋ - 1 := by omega
    have h6 : roundNE x = ⌊x⌋ := by omega
    rw [h5, h6] at h
    rcases hq _ _ h with h' | h' <;> push_cast at h' <;> linarith

/-- The place of a positive number: its last place, and the number in units of it. -/
theorem place {q : ℚ} (hq : 0 < q) :
    -1074 ≤ ulpExp q ∧ q / 2 ^ ulpExp q < 2 ^ 53 ∧ (ulpExp q = -1074 ∨ 2 ^ 52 ≤ q / 2 ^ ulpExp q) := by
  have hup := two_zpow_pos (ulpExp q)
  refine ⟨le_max_right _ _, ?_, ?_⟩
  · rw [div_lt_iff₀ hup]
    have h1 : q < (2 : ℚ) ^ (Int.log 2 q + 1) := by exact_mod_cast Int.lt_zpow_succ_log_self (b := 2) (by norm_num) q
    have h2 : (2 : ℚ) ^ (Int.log 2 q + 1) ≤ 2 ^ (53 + ulpExp q) := by
      apply zpow_le_zpow_right₀ (by norm_num)
      unfold ulpExp
      rw [abs_of_pos hq]
      omega
    calc q < _ := h1
      _ ≤ 2 ^ (53 + ulpExp q) := h2
      _ = 2 ^ 53 * 2 ^ ulpExp q := by rw [zpow_add₀ (by norm_num)]; norm_num
  · by_cases h : ulpExp q = -1074
    · exact .inl h
    · right
      rw [le_div_iff₀ hup]
      have h1 : (2 : ℚ) ^ Int.log 2 q ≤ q := by exact_mod_cast Int.zpow_log_le_self (b := 2) (by norm_num) hq
      have h2 : Int.log 2 q = 52 + ulpExp q := by
        unfold ulpExp at h ⊢
        rw [abs_of_pos hq] at h ⊢
        omega
      rw [h2, zpow_add₀ (by norm_num)] at h1
      calc (2 : ℚ) ^ 52 * 2 ^ ulpExp q = 2 ^ (52 : ℤ) * 2 ^ ulpExp q := by norm_num
        _ ≤ q := h1

theorem rndQ_pos {q : ℚ} (hq : 0 < q) : rndQ q = (roundNE (q / 2 ^ ulpExp q) : ℚ) * 2 ^ ulpExp q := by
  unfold rndQ
  rw [if_neg hq.ne']

theorem roundNE_bounds {x : ℚ} (h0 : 0 ≤ x) (h1 : x < 2 ^ 53) : 0 ≤ roundNE x ∧ roundNE x ≤ 2 ^ 53 := by
  constructor
  · have := roundNE_mono h0
    rwa [show (0 : ℚ) = ((0 : ℤ) : ℚ) by simp, roundNE_int] at this
  · have := roundNE_mono h1.le
    rwa [show (2 : ℚ) ^ 53 = ((2 ^ 53 : ℤ) : ℚ) by norm_num, roundNE_int] at this

theorem roundNE_ge {x : ℚ} (h : 2 ^ 52 ≤ x) : 2 ^ 52 ≤ roundNE x := by
  have := roundNE_mono h
  rwa [show (2 : ℚ) ^ 52 = ((2 ^ 52 : ℤ) : ℚ) by norm_num, roundNE_int] at this

/-- Any value of the format is a whole number of last places of `q`, or smaller than all that `q` could be rounded to. -/
theorem double_place {q : ℚ} (hq : 0 < q) {d : ℚ} (hd : IsBinary64 d) :
    (∃ n : ℤ, d = n * 2 ^ ulpExp q) ∨ (2 ^ 52 ≤ q / 2 ^ ulpExp q ∧ d < 2 ^ 52 * 2 ^ ulpExp q) := by
  obtain ⟨m, e, rfl, hm, he, -⟩ := hd
  by_cases hle : ulpExp q ≤ e
  · left
    obtain ⟨n, hn⟩ := Int.le.dest hle
    refine ⟨m * 2 ^ n, ?_⟩
    rw [← hn, zpow_add₀ (by norm_num)]
    push_cast
    rw [zpow_natCast]
    ring
  · right
    push Not at hle
    obtain ⟨h1, h2, h3⟩ := place hq
    refine ⟨h3.resolve_left (by omega), ?_⟩
    have h4 : (m : ℚ) < 2 ^ 53 := by
      have := (abs_lt.mp hm).2
      exact_mod_cast this
    calc (m : ℚ) * 2 ^ e < 2 ^ 53 * 2 ^ e := mul_lt_mul_of_pos_right h4 (two_zpow_pos e)
      _ = 2 ^ 52 * 2 ^ (e + 1) := by rw [zpow_add₀ (by norm_num)]; ring
      _ ≤ 2 ^ 52 * 2 ^ ulpExp q := mul_le_mul_of_nonneg_left (zpow_le_zpow_right₀ (by norm_num) (by omega)) (by norm_num)

theorem scaled_dist (q : ℚ) (u n : ℤ) : |(n : ℚ) * 2 ^ u - q| = |(n : ℚ) - q / 2 ^ u| * 2 ^ u := by
  have hu := two_zpow_pos u
  rw [← abs_of_pos hu, ← abs_mul, abs_of_pos hu]
  congr 1
  field_simp

/-- A value smaller than all that `q` could be rounded to is farther away. -/
theorem far {q : ℚ} (hq : 0 < q) {d : ℚ} (h1 : 2 ^ 52 ≤ q / 2 ^ ulpExp q) (h2 : d < 2 ^ 52 * 2 ^ ulpExp q) : |rndQ q - q| < |d - q| := by
  have hu := two_zpow_pos (ulpExp q)
  have h3 : (2 : ℚ) ^ 52 * 2 ^ ulpExp q ≤ q := (le_div_iff₀ hu).mp h1
  have h4 := roundNE_nearest (q / 2 ^ ulpExp q) (2 ^ 52)
  rw [rndQ_pos hq, scaled_dist]
  have h5 : |(((2 ^ 52 : ℤ) : ℤ) : ℚ) - q / 2 ^ ulpExp q| * 2 ^ ulpExp q = q - 2 ^ 52 * 2 ^ ulpExp q := by
    rw [← scaled_dist]
    push_cast
    rw [abs_of_nonpos (by linarith)]
    ring
  calc _ ≤ |(((2 ^ 52 : ℤ) : ℤ) : ℚ) - q / 2 ^ ulpExp q| * 2 ^ ulpExp q := mul_le_mul_of_nonneg_right h4 hu.le
    _ = q - 2 ^ 52 * 2 ^ ulpExp q := h5
    _ < q - d := by linarith
    _ = |d - q| := by rw [abs_of_nonpos (by linarith)]; ring

theorem rndQ_nearest_pos {q : ℚ} (hq : 0 < q) {d : ℚ} (hd : IsBinary64 d) : |rndQ q - q| ≤ |d - q| := by
  rcases double_place hq hd with ⟨n, rfl⟩ | ⟨h1, h2⟩
  · rw [rndQ_pos hq, scaled_dist, scaled_dist]
    exact mul_le_mul_of_nonneg_right (roundNE_nearest _ _) (two_zpow_pos _).le
  · exact (far hq h1 h2).le

theorem top_place {q : ℚ} (hq : 0 < q) (h : q < 2 ^ (1024 : ℤ)) : ulpExp q ≤ 971 := by
  have h1 : (2 : ℚ) ^ Int.log 2 q ≤ q := by exact_mod_cast Int.zpow_log_le_self (b := 2) (by norm_num) hq
  have h2 : Int.log 2 q < 1024 := by
    by_contra hge
    push Not at hge
    have : (2 : ℚ) ^ (1024 : ℤ) ≤ 2 ^ Int.log 2 q := zpow_le_zpow_right₀ (by norm_num) hge
    linarith
  unfold ulpExp
  rw [abs_of_pos hq]
  omega

/-- The result of rounding without overflow is even if it is a tie, and a value of the format. -/
theorem rndQ_double_pos {q : ℚ} (hq : 0 < q) (h : rndQ q < 2 ^ (1024 : ℤ)) (hb : q < 2 ^ (1024 : ℤ)) :
    IsBinary64 (rndQ q) ∧ (roundNE (q / 2 ^ ulpExp q) % 2 = 0 → IsEven (rndQ q)) := by
  obtain ⟨h1, h2, h3⟩ := place hq
  have hu := two_zpow_pos (ulpExp q)
  have h971 := top_place hq hb
  obtain ⟨k0, k1⟩ := roundNE_bounds (div_pos hq hu).le h2
  have hk : ulpExp q = -1074 ∨ 2 ^ 52 ≤ roundNE (q / 2 ^ ulpExp q) := h3.imp id roundNE_ge
  rw [rndQ_pos hq] at h ⊢
  generalize roundNE (q / 2 ^ ulpExp q) = k at *
  rcases k1.lt_or_eq with hlt | heq
  · exact ⟨⟨k, _, rfl, by rw [abs_of_nonneg k0]; exact hlt, h1, h971⟩,
      fun hev => ⟨k, _, rfl, by rw [abs_of_nonneg k0]; exact hlt, h1, h971, hk.symm.imp (fun x => by rw [abs_of_nonneg k0]; exact x) id, hev⟩⟩
  · have e : (k : ℚ) * 2 ^ ulpExp q = ((2 ^ 52 : ℤ) : ℚ) * 2 ^ (ulpExp q + 1) := by
      rw [heq, zpow_add₀ (by norm_num)]
      push_cast
      ring
    have hle : ulpExp q + 1 ≤ 971 := by
      by_contra hgt
      have h5 : ulpExp q = 971 := by omega
      rw [heq, h5] at h
      have h6 : (((2 ^ 53 : ℤ) : ℤ) : ℚ) * 2 ^ (971 : ℤ) = 2 ^ (1024 : ℤ) := by
        rw [show (1024 : ℤ) = 53 + 971 by norm_num, zpow_add₀ (by norm_num)]
        norm_num
      rw [h6] at h
      exact lt_irrefl _ h
    rw [e]
    exact ⟨⟨2 ^ 52, _, rfl, by norm_num, by omega, hle⟩, fun _ => ⟨2 ^ 52, _, rfl, by norm_num, by omega, hle, .inl (by norm_num), by norm_num⟩⟩

theorem overflow_up {q : ℚ} (h : overflowBound ≤ q) : 2 ^ (1024 : ℤ) ≤ rndQ q := by
  refine le_trans (le_of_eq ?_) (rndQ_mono h)
  have e : overflowBound = (2 ^ 53 - 1 / 2) * 2 ^ (971 : ℤ) := by
    unfold overflowBound
    rw [show (1024 : ℤ) = 53 + 971 by norm_num, show (970 : ℤ) = -1 + 971 by norm_num, zpow_add₀ (by norm_num), zpow_add₀ (by norm_num)]
    norm_num
    ring
  have h971 := two_zpow_pos 971
  rw [rndQ_eval (q := overflowBound) 1023 (by norm_num) ?_ ?_]
  · rw [show (1023 - 52 : ℤ) = 971 by norm_num, e, mul_div_cancel_right₀ _ h971.ne']
    have hf : ⌊((2 : ℚ) ^ 53 - 1 / 2)⌋ = 2 ^ 53 - 1 := by
      rw [Int.floor_eq_iff]
      norm_num
    have : roundNE ((2 : ℚ) ^ 53 - 1 / 2) = 2 ^ 53 := by
      unfold roundNE
      simp only [hf]
      norm_num
    rw [this, show (1024 : ℤ) = 53 + 971 by norm_num, zpow_add₀ (by norm_num)]
    norm_num
  · rw [e, show (1023 : ℤ) = 52 + 971 by norm_num, zpow_add₀ (by norm_num)]
    exact mul_le_mul_of_nonneg_right (by norm_num) h971.le
  · rw [e, show (1023 + 1 : ℤ) = 53 + 971 by norm_num, zpow_add₀ (by norm_num)]
    exact mul_lt_mul_of_pos_right (by norm_num) h971

theorem overflow_down {q : ℚ} (hq : 0 < q) (h : q < overflowBound) : rndQ q < 2 ^ (1024 : ℤ) ∧ q < 2 ^ (1024 : ℤ) := by
  have hb : q < 2 ^ (1024 : ℤ) := by
    unfold overflowBound at h
    exact lt_of_lt_of_le h (sub_le_self _ (two_zpow_pos 970).le)
  refine ⟨?_, hb⟩
  obtain ⟨h1, h2, h3⟩ := place hq
  have hu := two_zpow_pos (ulpExp q)
  have h971 := top_place hq hb
  rw [rndQ_pos hq]
  obtain ⟨k0, k1⟩ := roundNE_bounds (div_pos hq hu).le h2
  rcases h971.lt_or_eq with hlt | heq
  · have hk : (roundNE (q / 2 ^ ulpExp q) : ℚ) ≤ 2 ^ 53 := by exact_mod_cast k1
    calc (roundNE (q / 2 ^ ulpExp q) : ℚ) * 2 ^ ulpExp q ≤ 2 ^ 53 * 2 ^ ulpExp q := mul_le_mul_of_nonneg_right hk hu.le
      _ < 2 ^ 53 * 2 ^ (971 : ℤ) := mul_lt_mul_of_pos_left (zpow_lt_zpow_right₀ (by norm_num) hlt) (by norm_num)
      _ = 2 ^ (1024 : ℤ) := by rw [show (1024 : ℤ) = 53 + 971 by norm_num, zpow_add₀ (by norm_num)]; norm_num
  · rw [heq] at k1 ⊢
    have hx : q / 2 ^ (971 : ℤ) < 2 ^ 53 - 1 / 2 := by
      rw [div_lt_iff₀ (two_zpow_pos 971)]
      have e : overflowBound = (2 ^ 53 - 1 / 2) * 2 ^ (971 : ℤ) := by
        unfold overflowBound
        rw [show (1024 : ℤ) = 53 + 971 by norm_num, show (970 : ℤ) = -1 + 971 by norm_num, zpow_add₀ (by norm_num), zpow_add₀ (by norm_num)]
        norm_num
        ring
      rwa [e] at h
    have hd := (abs_le.mp (abs_roundNE_sub_le (q / 2 ^ (971 : ℤ)))).2
    have hk : (roundNE (q / 2 ^ (971 : ℤ)) : ℚ) < 2 ^ 53 := by linarith
    calc (roundNE (q / 2 ^ (971 : ℤ)) : ℚ) * 2 ^ (971 : ℤ) < 2 ^ 53 * 2 ^ (971 : ℤ) := mul_lt_mul_of_pos_right hk (two_zpow_pos 971)
      _ = 2 ^ (1024 : ℤ) := by rw [show (1024 : ℤ) = 53 + 971 by norm_num, zpow_add₀ (by norm_num)]; norm_num

/-! ### Sign -/

theorem isDouble_neg {d : ℚ} (h : IsBinary64 d) : IsBinary64 (-d) := by
  obtain ⟨m, e, rfl, h1, h2⟩ := h
  exact ⟨-m, e, by push_cast; ring, by rwa [abs_neg], h2⟩

theorem isEven_neg {d : ℚ} (h : IsEven d) : IsEven (-d) := by
  obtain ⟨m, e, rfl, h1, h2, h3, h4, h5⟩ := h
  exact ⟨-m, e, by push_cast; ring, by rwa [abs_neg], h2, h3, by rwa [abs_neg], by omega⟩

theorem nearestEven_neg {q d : ℚ} (h : IsNearestEven q d) : IsNearestEven (-q) (-d) := by
  refine ⟨isDouble_neg h.1, fun d' hd' => ?_⟩
  obtain ⟨h1, h2⟩ := h.2 (-d') (isDouble_neg hd')
  have e1 : |-d - -q| = |d - q| := by rw [← abs_neg]; ring_nf
  have e2 : |d' - -q| = |-d' - q| := by rw [← abs_neg]; ring_nf
  rw [e1, e2]
  refine ⟨h1, fun he hne => isEven_neg (h2 he fun h' => hne ?_)⟩
  rw [← h', neg_neg]

theorem nearestEven_pos {q : ℚ} (hq : 0 < q) (h : q < overflowBound) : IsNearestEven q (rndQ q) := by
  obtain ⟨h1, h2⟩ := overflow_down hq h
  obtain ⟨d1, d2⟩ := rndQ_double_pos hq h1 h2
  refine ⟨d1, fun d' hd' => ⟨rndQ_nearest_pos hq hd', fun he hne => ?_⟩⟩
  rcases double_place hq hd' with ⟨n, rfl⟩ | ⟨f1, f2⟩
  · apply d2
    have hu := two_zpow_pos (ulpExp q)
    rw [rndQ_pos hq, scaled_dist, scaled_dist] at he
    have he' := mul_right_cancel₀ hu.ne' he
    refine (roundNE_tie _ n ?_ he').1
    rintro rfl
    exact hne (rndQ_pos hq).symm
  · exact absurd he (far hq f1 f2).ne

theorem isDouble_zero : IsBinary64 0 := ⟨0, 0, by norm_num, by norm_num, by norm_num, by norm_num⟩

theorem overflowBound_pos : 0 < overflowBound := by
  unfold overflowBound
  have : (2 : ℚ) ^ (970 : ℤ) < 2 ^ (1024 : ℤ) := zpow_lt_zpow_right₀ (by norm_num) (by norm_num)
  exact sub_pos.mpr this

theorem nearestEven_rndQ {q : ℚ} (h : |q| < overflowBound) : IsNearestEven q (rndQ q) := by
  rcases lt_trichotomy q 0 with hn | rfl | hp
  · have := nearestEven_neg (nearestEven_pos (q := -q) (by linarith) (by rwa [abs_of_neg hn] at h))
    rwa [rndQ_neg, neg_neg, neg_neg] at this
  · rw [rndQ_zero]
    refine ⟨isDouble_zero, fun d' _ => ⟨by simp, fun he hne => ?_⟩⟩
    rw [sub_zero, abs_zero, sub_zero] at he
    exact absurd (abs_eq_zero.mp he.symm) hne
  · exact nearestEven_pos hp (by rwa [abs_of_pos hp] at h)

theorem rndQ_finite_iff (q : ℚ) : |rndQ q| < 2 ^ (1024 : ℤ) ↔ |q| < overflowBound := by
  have key : ∀ q : ℚ, 0 < q → (|rndQ q| < 2 ^ (1024 : ℤ) ↔ |q| < overflowBound) := by
    intro q hq
    rw [abs_of_pos hq, abs_of_nonneg (rndQ_nonneg hq.le)]
    refine ⟨fun h => ?_, fun h => (overflow_down hq h).1⟩
    by_contra hge
    push Not at hge
    exact absurd h (not_lt.mpr (overflow_up hge))
  rcases lt_trichotomy q 0 with hn | rfl | hp
  · have := key (-q) (by linarith)
    rwa [rndQ_neg, abs_neg, abs_neg] at this
  · simp [overflowBound_pos]
  · exact key q hp

/-- C120, rounding: results from `overflowBound` on are infinite with the sign of the exact one. -/
theorem c120_overflow (q : ℚ) (s : Bool) : F64.ofRat q = .inf s ↔ overflowBound ≤ |q| ∧ s = decide (q < 0) := by
  have h := rndQ_finite_iff q
  unfold F64.ofRat
  simp only
  split_ifs with hc
  · rw [F64.inf.injEq]
    have hge : overflowBound ≤ |q| := by
      by_contra hlt
      exact absurd (h.mpr (not_le.mp hlt)) (not_lt.mpr hc)
    exact ⟨fun e => ⟨hge, e.symm⟩, fun e => e.2.symm⟩
  · constructor
    · intro e
      simp at e
    · rintro ⟨hge, -⟩
      exact absurd (h.mp (not_le.mp hc)) (not_lt.mpr hge)

/-- The exact results never round to a NaN. -/
theorem ofRat_ne_nan (q : ℚ) : F64.ofRat q ≠ .nan := by
  unfold F64.ofRat
  simp only
  split_ifs <;> simp

/-- Values of the format are equal to their even neighbours only if they are even themselves: the representation is unique. -/
theorem even_unique {m e n u : ℤ} (h : (m : ℚ) * 2 ^ e = n * 2 ^ u) (hm : |m| < 2 ^ 53) (hn : |n| < 2 ^ 53)
    (hm' : 2 ^ 52 ≤ |m| ∨ e = -1074) (hn' : 2 ^ 52 ≤ |n| ∨ u = -1074) (he : -1074 ≤ e) (hu : -1074 ≤ u) : m = n := by
  have key : ∀ {m e n u : ℤ}, (m : ℚ) * 2 ^ e = n * 2 ^ u → |n| < 2 ^ 53 → (2 ^ 52 ≤ |m| ∨ e = -1074) → -1074 ≤ u → u < e → False := by
    intro m e n u h hn hm' hu hlt
    obtain ⟨k, hk⟩ := Int.le.dest (show u + 1 ≤ e from hlt)
    have h1 : (n : ℚ) = ((m * 2 ^ (k + 1) : ℤ) : ℚ) := by
      have hpos := two_zpow_pos u
      apply mul_right_cancel₀ hpos.ne'
      rw [← h, ← hk, zpow_add₀ (by norm_num), zpow_add₀ (by norm_num), zpow_natCast]
      push_cast
      ring
    have h2 : n = m * 2 ^ (k + 1) := by exact_mod_cast h1
    have h3 : 2 ^ 52 ≤ |m| := hm'.resolve_right (by omega)
    rw [h2, abs_mul, abs_of_pos (by positivity : (0 : ℤ) < 2 ^ (k + 1))] at hn
    have h4 : (1 : ℤ) ≤ 2 ^ k := one_le_pow₀ (by norm_num)
    have h5 : (2 : ℤ) ^ (k + 1) = 2 * 2 ^ k := by ring
    rw [h5] at hn
    nlinarith
  rcases lt_trichotomy e u with hlt | rfl | hlt
  · exact absurd (key h.symm hm hn' he hlt) id
  · have hpos := two_zpow_pos e
    have := mul_right_cancel₀ hpos.ne' h
    exact_mod_cast this
  · exact absurd (key h hn hm' hu hlt) id

theorem unique_pos {q : ℚ} (hq : 0 < q) (h : q < overflowBound) {d : ℚ} (hd : IsNearestEven q d) : d = rndQ q := by
  by_contra hne
  have hr := nearestEven_pos hq h
  have heq : |d - q| = |rndQ q - q| := le_antisymm (hd.2 _ hr.1).1 (hr.2 _ hd.1).1
  obtain ⟨m, e, hme, hm1, he1, he2, hm2, hm3⟩ := (hd.2 _ hr.1).2 heq (Ne.symm hne)
  obtain ⟨p1, p2, p3⟩ := place hq
  have hu := two_zpow_pos (ulpExp q)
  rcases double_place hq hd.1 with ⟨n, hn⟩ | ⟨f1, f2⟩
  · rw [hn, rndQ_pos hq, scaled_dist, scaled_dist] at heq
    have he' := mul_right_cancel₀ hu.ne' heq
    obtain ⟨t1, t2, t3⟩ := roundNE_tie _ n (by rintro rfl; exact hne (by rw [hn, rndQ_pos hq])) he'.symm
    obtain ⟨k0, k1⟩ := roundNE_bounds (div_pos hq hu).le p2
    have hfl : 0 ≤ ⌊q / 2 ^ ulpExp q⌋ := Int.floor_nonneg.mpr (div_pos hq hu).le
    have hn0 : 0 ≤ n := le_trans hfl t3
    have hn53 : n < 2 ^ 53 + 1 := by
      have hx : (n : ℚ) < 2 ^ 53 + 1 := by
        have b1 := abs_roundNE_sub_le (q / 2 ^ ulpExp q)
        rw [he'.symm] at b1
        have b2 := (abs_le.mp b1).2
        linarith
      exact_mod_cast hx
    have hodd : n % 2 = 1 := by omega
    have hmn : m = n := by
      refine even_unique (by rw [← hme, hn]) hm1 (by rw [abs_of_nonneg hn0]; omega) hm2 ?_ he1 p1
      rcases p3 with p3 | p3
      · exact .inr p3
      · left
        rw [abs_of_nonneg hn0]
        refine le_trans ?_ t3
        rw [Int.le_floor]
        exact_mod_cast p3
    omega
  · exact absurd heq (far hq f1 f2).ne'

/-- C120, rounding: below that, the result is the value of the format nearest to the exact one, of two equally near the even one; there
is only one such value. -/
theorem c120_round (q d : ℚ) : F64.ofRat q = .fin d ↔ |q| < overflowBound ∧ IsNearestEven q d := by
  have hfin := rndQ_finite_iff q
  have hval : |q| < overflowBound → F64.ofRat q = .fin (rndQ q) := fun h => F64.ofRat_eq_fin (hfin.mpr h)
  constructor
  · intro h
    have hlt : |q| < overflowBound := by
      by_contra hge
      rw [(c120_overflow q (decide (q < 0))).mpr ⟨not_lt.mp hge, rfl⟩] at h
      simp at h
    rw [hval hlt, F64.fin.injEq] at h
    rw [← h]
    exact ⟨hlt, nearestEven_rndQ hlt⟩
  · rintro ⟨hlt, hd⟩
    rw [hval hlt, F64.fin.injEq]
    rcases lt_trichotomy q 0 with hn | rfl | hp
    · have := unique_pos (q := -q) (by linarith) (by rwa [abs_of_neg hn] at hlt) (nearestEven_neg hd)
      rw [rndQ_neg] at this
      linarith
    · rw [rndQ_zero]
      have := (hd.2 0 isDouble_zero).1
      rw [sub_zero, sub_zero, abs_zero] at this
      exact (abs_nonpos_iff.mp this).symm
    · exact (unique_pos hp (by rwa [abs_of_pos hp] at hlt) hd).symm

/-- C120: values of the format are not changed, and only they are results. -/
theorem c120_exact (d : ℚ) : F64.ofRat d = .fin d ↔ IsBinary64 d := by
  constructor
  · intro h
    exact ((c120_round d d).mp h).2.1
  · rintro ⟨m, e, rfl, h1, h2, h3⟩
    have hg : rndQ ((m : ℚ) * 2 ^ e) = m * 2 ^ e := rndQ_of_grid m e rfl h2 h1.le
    rw [F64.ofRat_eq_fin, hg]
    rw [hg, abs_mul, abs_of_pos (two_zpow_pos e)]
    have hm : |(m : ℚ)| < 2 ^ 53 := by
      rw [← Int.cast_abs]
      exact_mod_cast h1
    calc |(m : ℚ)| * 2 ^ e < 2 ^ 53 * 2 ^ e := mul_lt_mul_of_pos_right hm (two_zpow_pos e)
      _ ≤ 2 ^ 53 * 2 ^ (971 : ℤ) := mul_le_mul_of_nonneg_left (zpow_le_zpow_right₀ (by norm_num) h3) (by norm_num)
      _ = 2 ^ (1024 : ℤ) := by rw [show (1024 : ℤ) = 53 + 971 by norm_num, zpow_add₀ (by norm_num)]; norm_num

/-! ## Operations -/

theorem extended_fin (q : ℚ) : extended (.fin q) = some ((q : ℝ) : EReal) := rfl

/-- C120, addition: invalid exactly for a NaN and for infinities of opposite sign; otherwise with an infinity the sum is that of the
extended numbers, and without one the exact sum is rounded. -/
theorem c120_add (a b : F64) :
    (F64.add a b = .nan ↔ a = .nan ∨ b = .nan ∨ ∃ s, a = .inf s ∧ b = .inf (!s)) ∧
    (∀ x y, extended a = some x → extended b = some y → F64.add a b ≠ .nan →
      (∀ p q, ¬ (a = .fin p ∧ b = .fin q)) → extended (F64.add a b) = some (x + y)) ∧
    (∀ p q, a = .fin p → b = .fin q → F64.add a b = F64.ofRat (p + q)) := by
  refine ⟨?_, ?_, ?_⟩
  · rcases a with _ | (_ | _) | p <;> rcases b with _ | (_ | _) | q <;> simp [F64.add, ofRat_ne_nan]
  · rcases a with _ | (_ | _) | p <;> rcases b with _ | (_ | _) | q <;> simp [F64.add, extended]
  · rintro p q rfl rfl
    rfl

/-- C120, subtraction is the addition of the opposite, and negation changes the sign. -/
theorem c120_sub (a b : F64) : F64.sub a b = F64.add a (F64.neg b) ∧ extended (F64.neg a) = (extended a).map (fun x => -x) := by
  refine ⟨rfl, ?_⟩
  rcases a with _ | (_ | _) | p <;> simp [F64.neg, extended]

theorem mul_fin_right (s : Bool) (q : ℚ) (h : F64.mul (.inf s) (.fin q) ≠ .nan) :
    extended (F64.mul (.inf s) (.fin q)) = some ((if s then ⊥ else ⊤) * ((q : ℝ) : EReal)) := by
  have h0 : q ≠ 0 := by
    rintro rfl
    simp [F64.mul] at h
  rcases lt_or_gt_of_ne h0 with hq | hq
  · have hr : (q : ℝ) < 0 := by exact_mod_cast hq
    cases s
    · simp [F64.mul, h0, hq, extended, EReal.top_mul_coe_of_neg hr]
    · simp [F64.mul, h0, hq, extended, EReal.bot_mul_coe_of_neg hr]
  · have hr : (0 : ℝ) < q := by exact_mod_cast hq
    cases s
    · simp [F64.mul, h0, not_lt.mpr hq.le, extended, EReal.top_mul_coe_of_pos hr]
    · simp [F64.mul, h0, not_lt.mpr hq.le, extended, EReal.bot_mul_coe_of_pos hr]

theorem mul_fin_left (s : Bool) (q : ℚ) (h : F64.mul (.fin q) (.inf s) ≠ .nan) :
    extended (F64.mul (.fin q) (.inf s)) = some (((q : ℝ) : EReal) * (if s then ⊥ else ⊤)) := by
  have h0 : q ≠ 0 := by
    rintro rfl
    simp [F64.mul] at h
  rcases lt_or_gt_of_ne h0 with hq | hq
  · have hr : (q : ℝ) < 0 := by exact_mod_cast hq
    cases s
    · simp [F64.mul, h0, hq, extended, EReal.coe_mul_top_of_neg hr]
    · simp [F64.mul, h0, hq, extended, EReal.coe_mul_bot_of_neg hr]
  · have hr : (0 : ℝ) < q := by exact_mod_cast hq
    cases s
    · simp [F64.mul, h0, not_lt.mpr hq.le, extended, EReal.coe_mul_top_of_pos hr]
    · simp [F64.mul, h0, not_lt.mpr hq.le, extended, EReal.coe_mul_bot_of_pos hr]

theorem div_fin_right (s : Bool) (q : ℚ) (h0 : q ≠ 0) :
    extended (F64.div (.inf s) (.fin q)) = some ((if s then ⊥ else ⊤) / ((q : ℝ) : EReal)) := by
  rcases lt_or_gt_of_ne h0 with hq | hq
  · have hr : ((q : ℝ) : EReal) < 0 := by exact_mod_cast hq
    cases s
    · simp [F64.div, hq, extended, EReal.top_div_of_neg_ne_bot hr (EReal.coe_ne_bot _)]
    · simp [F64.div, hq, extended, EReal.bot_div_of_neg_ne_bot hr (EReal.coe_ne_bot _)]
  · have hr : 0 < ((q : ℝ) : EReal) := by exact_mod_cast hq
    cases s
    · simp [F64.div, not_lt.mpr hq.le, extended, EReal.top_div_of_pos_ne_top hr (EReal.coe_ne_top _)]
    · simp [F64.div, not_lt.mpr hq.le, extended, EReal.bot_div_of_pos_ne_top hr (EReal.coe_ne_top _)]

/-- C120, multiplication: invalid exactly for a NaN and for zero times infinity. -/
theorem c120_mul (a b : F64) :
    (F64.mul a b = .nan ↔ a = .nan ∨ b = .nan ∨ (∃ s, a = .inf s ∧ b = .fin 0) ∨ ∃ s, a = .fin 0 ∧ b = .inf s) ∧
    (∀ x y, extended a = some x → extended b = some y → F64.mul a b ≠ .nan →
      (∀ p q, ¬ (a = .fin p ∧ b = .fin q)) → extended (F64.mul a b) = some (x * y)) ∧
    (∀ p q, a = .fin p → b = .fin q → F64.mul a b = F64.ofRat (p * q)) := by
  refine ⟨?_, ?_, ?_⟩
  · rcases a with _ | (_ | _) | p <;> rcases b with _ | (_ | _) | q <;> simp [F64.mul, ofRat_ne_nan]
  · rcases a with _ | (_ | _) | p <;> rcases b with _ | (_ | _) | q <;> rintro x y hx hy hnan hfin <;>
      simp only [extended, reduceCtorEq, Option.some.injEq] at hx hy
    all_goals subst hx hy
    · rfl
    · rfl
    · exact mul_fin_right false q hnan
    · rfl
    · rfl
    · exact mul_fin_right true q hnan
    · exact mul_fin_left false p hnan
    · exact mul_fin_left true p hnan
    · exact absurd ⟨rfl, rfl⟩ (hfin p q)
  · rintro p q rfl rfl
    rfl

/-- C120, division: invalid exactly for a NaN, zero by zero and infinity by infinity.  By a zero (taken as positive) the quotient is
infinite with the sign of the dividend; with an infinity and otherwise it is that of the extended numbers, and without one the exact
quotient is rounded. -/
theorem c120_div (a b : F64) :
    (F64.div a b = .nan ↔ a = .nan ∨ b = .nan ∨ (∃ s t, a = .inf s ∧ b = .inf t) ∨ (a = .fin 0 ∧ b = .fin 0)) ∧
    (∀ s, F64.div (.inf s) (.fin 0) = .inf s) ∧ (∀ p : ℚ, p ≠ 0 → F64.div (.fin p) (.fin 0) = .inf (decide (p < 0))) ∧
    (∀ x y, extended a = some x → extended b = some y → F64.div a b ≠ .nan → b ≠ .fin 0 →
      (∀ p q, ¬ (a = .fin p ∧ b = .fin q)) → extended (F64.div a b) = some (x / y)) ∧
    (∀ p q, q ≠ 0 → a = .fin p → b = .fin q → F64.div a b = F64.ofRat (p / q)) := by
  refine ⟨?_, ?_, ?_, ?_, ?_⟩
  · rcases a with _ | (_ | _) | p <;> rcases b with _ | (_ | _) | q <;> simp [F64.div]
    by_cases hq : q = 0
    · by_cases hp : p = 0 <;> simp [hp, hq]
    · simp [hq, ofRat_ne_nan]
  · intro s
    cases s <;> simp [F64.div]
  · intro p hp
    simp [F64.div, hp]
  · rcases a with _ | (_ | _) | p <;> rcases b with _ | (_ | _) | q <;> rintro x y hx hy hnan hz hfin <;>
      simp only [extended, reduceCtorEq, Option.some.injEq] at hx hy
    all_goals subst hx hy
    · exact absurd rfl hnan
    · exact absurd rfl hnan
    · exact div_fin_right false q (by simpa using hz)
    · exact absurd rfl hnan
    · exact absurd rfl hnan
    · exact div_fin_right true q (by simpa using hz)
    · rw [EReal.div_top]
      simp [F64.div, extended]
    · rw [EReal.div_bot]
      simp [F64.div, extended]
    · exact absurd ⟨rfl, rfl⟩ (hfin p q)
  · rintro p q hq rfl rfl
    simp [F64.div, hq]

/-- C120, comparisons: those of the extended numbers, and false with a NaN. -/
theorem c120_compare (a b : F64) :
    (F64.lt a b = true ↔ ∃ x y, extended a = some x ∧ extended b = some y ∧ x < y) ∧
    (F64.le a b = true ↔ ∃ x y, extended a = some x ∧ extended b = some y ∧ x ≤ y) := by
  constructor
  · rcases a with _ | (_ | _) | p <;> rcases b with _ | (_ | _) | q <;> simp [F64.lt, extended, EReal.bot_lt_coe, EReal.coe_lt_top]
  · rcases a with _ | (_ | _) | p <;> rcases b with _ | (_ | _) | q <;> simp [F64.le, extended]

/-- C120, the absolute value. -/
theorem c120_abs (a : F64) : extended (F64.abs a) = (extended a).map fun x => max x (-x) := by
  rcases a with _ | (_ | _) | p
  · rfl
  · simp [F64.abs, extended]
  · simp [F64.abs, extended]
  · simp only [F64.abs, extended, Option.map_some, Option.some.injEq]
    rw [← EReal.coe_neg]
    rcases le_total 0 p with h | h
    · have h' : -(p : ℝ) ≤ p := by
        have : (0 : ℝ) ≤ p := by exact_mod_cast h
        linarith
      rw [abs_of_nonneg h, max_eq_left (EReal.coe_le_coe_iff.mpr h')]
    · have h' : (p : ℝ) ≤ -p := by
        have : (p : ℝ) ≤ 0 := by exact_mod_cast h
        linarith
      rw [abs_of_nonpos h, max_eq_right (EReal.coe_le_coe_iff.mpr h')]
      push_cast
      rfl

theorem trunc_unique {q : ℚ} {n k : ℤ} (hn : IsTruncated q n) (hk : IsTruncated q k) : n = k := by
  obtain ⟨a1, a2, a3⟩ := hn
  obtain ⟨b1, b2, b3⟩ := hk
  have h1 : (|n| : ℤ) < |k| + 1 := by
    have : ((|n| : ℤ) : ℚ) < ((|k| + 1 : ℤ) : ℚ) := by push_cast; linarith
    exact_mod_cast this
  have h2 : (|k| : ℤ) < |n| + 1 := by
    have : ((|k| : ℤ) : ℚ) < ((|n| + 1 : ℤ) : ℚ) := by push_cast; linarith
    exact_mod_cast this
  have h3 : |n| = |k| := by omega
  rcases abs_eq_abs.mp h3 with h | h
  · exact h
  · by_cases h0 : k = 0
    · omega
    · exfalso
      have hk0 : (k : ℚ) ≠ 0 := by exact_mod_cast h0
      have e : (n : ℚ) = -k := by rw [h]; push_cast; rfl
      rw [e] at a3
      have hz : (k : ℚ) * q = 0 := by linarith
      rcases mul_eq_zero.mp hz with hz | hz
      · exact hk0 hz
      · rw [hz, abs_zero] at b1
        exact hk0 (abs_nonpos_iff.mp b1)

theorem truncQ_spec (q : ℚ) : IsTruncated q (F64.truncQ q) := by
  unfold F64.truncQ IsTruncated
  split_ifs with h
  · have h1 := Int.floor_le q
    have h2 := Int.lt_floor_add_one q
    have h3 : (0 : ℚ) ≤ ⌊q⌋ := by exact_mod_cast Int.floor_nonneg.mpr h
    rw [abs_of_nonneg h3, abs_of_nonneg h]
    exact ⟨h1, h2, mul_nonneg h3 h⟩
  · have h0 : q < 0 := not_le.mp h
    have h1 := Int.le_ceil q
    have h2 := Int.ceil_lt_add_one q
    have h3 : (⌈q⌉ : ℚ) ≤ 0 := by
      have : ⌈q⌉ ≤ 0 := Int.ceil_le.mpr (by simpa using h0.le)
      exact_mod_cast this
    rw [abs_of_nonpos h3, abs_of_neg h0]
    exact ⟨by linarith, by linarith, mul_nonneg_of_nonpos_of_nonpos h3 h0.le⟩

/-- C120, conversions to integers: the fraction is discarded; not defined if what remains does not fit, or for an infinity or a NaN. -/
theorem c120_convert (a : F64) :
    (∀ n : ℤ, a.toI32? = some n ↔ ∃ q, a = .fin q ∧ IsTruncated q n ∧ -2 ^ 31 ≤ n ∧ n < 2 ^ 31) ∧
    (∀ n : ℕ, a.toU64? = some n ↔ ∃ q, a = .fin q ∧ IsTruncated q n ∧ n < 2 ^ 64) := by
  constructor
  · intro n
    rcases a with _ | _ | q
    · simp [F64.toI32?]
    · simp [F64.toI32?]
    · have hs := truncQ_spec q
      simp only [F64.toI32?, F64.fin.injEq, exists_eq_left']
      constructor
      · intro h
        split_ifs at h with hc
        rw [Option.some.injEq] at h
        rw [← h]
        exact ⟨hs, hc⟩
      · rintro ⟨ht, h1, h2⟩
        have e := trunc_unique hs ht
        rw [if_pos (by rw [e]; exact ⟨h1, h2⟩), e]
  · intro n
    rcases a with _ | _ | q
    · simp [F64.toU64?]
    · simp [F64.toU64?]
    · have hs := truncQ_spec q
      simp only [F64.toU64?, F64.fin.injEq, exists_eq_left']
      constructor
      · intro h
        split_ifs at h with hc
        rw [Option.some.injEq] at h
        have e : ((n : ℕ) : ℤ) = F64.truncQ q := by rw [← h]; omega
        refine ⟨?_, by omega⟩
        rw [e]
        exact hs
      · rintro ⟨ht, h2⟩
        have e := trunc_unique hs ht
        rw [if_pos (by rw [e]; omega), e]
        simp

/-- Which doubles are in the range of an unsigned type when their fraction is cut off. -/
theorem trunc_range (q : ℚ) (B : ℕ) (hB : 0 < B) : -1 < q ∧ q < B ↔ 0 ≤ F64.truncQ q ∧ F64.truncQ q < B := by
  obtain ⟨h1, h2, h3⟩ := truncQ_spec q
  constructor
  · rintro ⟨ha, hb⟩
    by_contra hcon
    rcases le_or_gt 0 q with hq | hq
    · rw [abs_of_nonneg hq] at h1 h2
      have h4 : F64.truncQ q < B := by
        have := lt_of_le_of_lt (le_trans (le_abs_self _) h1) hb
        exact_mod_cast this
      have h6 : ((F64.truncQ q : ℤ) : ℚ) ≤ -1 := by exact_mod_cast (by omega : F64.truncQ q ≤ -1)
      have h7 : q ≤ 0 := by nlinarith
      rw [abs_of_neg (by linarith)] at h1
      linarith
    · rw [abs_of_neg hq] at h1
      have h4 : |((F64.truncQ q : ℤ) : ℚ)| < 1 := by linarith
      have h5 : |F64.truncQ q| < 1 := by exact_mod_cast h4
      rw [Int.abs_lt_one_iff] at h5
      omega
  · rintro ⟨ha, hb⟩
    have ha' : (0 : ℚ) ≤ (F64.truncQ q : ℤ) := by exact_mod_cast ha
    have hb' : ((F64.truncQ q : ℤ) : ℚ) + 1 ≤ B := by exact_mod_cast (by omega : F64.truncQ q + 1 ≤ B)
    rw [abs_of_nonneg ha'] at h1 h2
    refine ⟨?_, lt_of_le_of_lt (le_abs_self _) (lt_of_lt_of_le h2 hb')⟩
    rcases le_or_gt 0 q with hq | hq
    · linarith
    · have h4 : ((F64.truncQ q : ℤ) : ℚ) ≤ 0 := by
        by_contra hcon
        push Not at hcon
        nlinarith
      rw [abs_of_neg hq] at h2
      linarith

theorem trunc_some (q : ℚ) (B n : ℕ) :
    (if 0 ≤ F64.truncQ q ∧ F64.truncQ q < B then some (F64.truncQ q).toNat else none) = some n ↔ IsTruncated q n ∧ n < B := by
  have hs := truncQ_spec q
  constructor
  · intro h
    split_ifs at h with hc
    rw [Option.some.injEq] at h
    have e : ((n : ℕ) : ℤ) = F64.truncQ q := by rw [← h]; omega
    refine ⟨?_, by omega⟩
    rw [e]
    exact hs
  · rintro ⟨ht, h2⟩
    have e := trunc_unique hs ht
    rw [if_pos (by rw [e]; omega), e]
    simp

/-- C120, the conversions to `unsigned int` and `uint16_t` in the benchmarks: the fraction of a number above -1 is cut off. -/
theorem c120_unsigned (a : F64) (n : ℕ) :
    (toU32? a = some n ↔ ∃ q, a = .fin q ∧ IsTruncated q n ∧ n < 2 ^ 32) ∧
    (toU16? a = some n ↔ ∃ q, a = .fin q ∧ IsTruncated q n ∧ n < 2 ^ 16) := by
  rcases a with _ | _ | q
  · simp [toU32?, toU16?]
  · simp [toU32?, toU16?]
  · have h32 := trunc_range q 4294967296 (by norm_num)
    have h16 := trunc_range q 65536 (by norm_num)
    have s32 := trunc_some q 4294967296 n
    have s16 := trunc_some q 65536 n
    push_cast at h32 h16 s32 s16
    simp only [toU32?, toU16?, F64.fin.injEq, exists_eq_left', h32, h16]
    exact ⟨s32, s16⟩

/-- -1/2 becomes 0; the conversion of -1 is undefined. -/
example : toU32? (.fin (-1 / 2)) = some 0 ∧ toU32? (.fin (-1)) = none ∧ toU32? (.fin (4294967295 + 1 / 2)) = some 4294967295 := by
  decide +kernel

/-- C120, `std::round`. -/
theorem c120_roundAway (q : ℚ) : ∃ n : ℤ, F64.round (.fin q) = .fin n ∧ IsRounded q n := by
  refine ⟨_, rfl, ?_⟩
  unfold IsRounded
  split_ifs with h
  · have h1 := Int.floor_le (q + 1 / 2)
    have h2 := Int.lt_floor_add_one (q + 1 / 2)
    refine ⟨by rw [abs_le]; constructor <;> linarith, fun he => ?_⟩
    rw [abs_of_nonneg h]
    have h3 : (⌊q + 1 / 2⌋ : ℚ) - q = 1 / 2 := by
      rcases abs_choice ((⌊q + 1 / 2⌋ : ℚ) - q) with h' | h' <;> rw [he] at h'
      · linarith
      · exfalso
        linarith
    rw [abs_of_nonneg (by linarith)]
    linarith
  · have h0 : q < 0 := not_le.mp h
    have h1 := Int.le_ceil (q - 1 / 2)
    have h2 := Int.ceil_lt_add_one (q - 1 / 2)
    refine ⟨by rw [abs_le]; constructor <;> linarith, fun he => ?_⟩
    rw [abs_of_neg h0]
    have h3 : (⌈q - 1 / 2⌉ : ℚ) - q = -(1 / 2) := by
      rcases abs_choice ((⌈q - 1 / 2⌉ : ℚ) - q) with h' | h' <;> rw [he] at h'
      · exfalso
        linarith
      · linarith
    rw [abs_of_nonpos (by linarith)]
    linarith

/-! ## Examples -/

/-- One third is not a value of the format; the nearest one is 6004799503160661 · 2^-54. -/
example : F64.ofRat (1 / 3) = .fin (6004799503160661 / 2 ^ 54) ∧ IsBinary64 (6004799503160661 / 2 ^ 54) := by
  refine ⟨by decide +kernel, 6004799503160661, -54, ?_, by norm_num, by norm_num, by norm_num⟩
  rw [zpow_neg]
  norm_num

/-- Ties: 2^53 + 1 lies between 2^53 and 2^53 + 2, and goes to the even one; 2^53 + 3 goes up. -/
example : F64.ofInt (2 ^ 53 + 1) = .fin (2 ^ 53) ∧ F64.ofInt (2 ^ 53 + 3) = .fin (2 ^ 53 + 4) := by
  constructor <;> decide +kernel

/-- The bound itself is infinite already. -/
example : F64.ofRat overflowBound = .inf false := (c120_overflow _ _).mpr ⟨le_abs_self _, by
  have := overflowBound_pos
  simp [not_lt.mpr this.le]⟩

end Verif.Props
