import Verif.Model.FastMath
import Verif.Spec.FastMath
import Verif.Lemmas.Near
import Verif.Props.Peak

/-! # C116: the liberties of `-ffast-math` -/

namespace Verif.Props

open Verif Verif.Spec

theorem one_fin : F64.ofRat 1 = .fin ((1 : ℤ) : ℚ) := by
  have := F64.ofRat_int (n := 1) (by norm_num)
  simpa using this

/-- Sums of small integers do not depend on the order, the grouping or the fusing. -/
theorem fastSum_exact {α : Type} {ways : α → List (F64 × F64)} (f : α → ℤ) (B : ℤ) {l : List α} {v : F64} (h : FastSum ways l v)
    (hw : ∀ a ∈ l, (0 ≤ f a ∧ f a ≤ B) ∧ ∀ p ∈ ways a, ∃ m k : ℤ, p = (.fin (m : ℚ), .fin (k : ℚ)) ∧ m * k = f a)
    (hB : 0 ≤ B) (hl : l.length * B ≤ 2 ^ 53) :
    v = .fin (((l.map f).sum : ℤ) : ℚ) ∧ 0 ≤ (l.map f).sum ∧ (l.map f).sum ≤ l.length * B := by
  induction h with
  | zero =>
    refine ⟨?_, by simp, by simp⟩
    simpa using fin_zero
  | @one a p hp =>
    obtain ⟨⟨b1, b2⟩, h2⟩ := hw a (by simp)
    obtain ⟨m, k, rfl, hmk⟩ := h2 p hp
    simp only [List.length_singleton, Nat.cast_one, one_mul] at hl
    refine ⟨?_, by simpa using b1, by simpa using b2⟩
    show F64.ofRat ((m : ℚ) * k) = _
    rw [← Int.cast_mul, hmk, F64.ofRat_int (by rw [abs_of_nonneg b1]; omega)]
    simp
  | @add l m k u v _ _ hk ih1 ih2 =>
    have hlen : k.length = l.length + m.length := by rw [hk.length_eq, List.length_append]
    have hsum : (k.map f).sum = (l.map f).sum + (m.map f).sum := by rw [(hk.map f).sum_eq, List.map_append, List.sum_append]
    have h0 : (0 : ℤ) ≤ l.length * B := by positivity
    have h0' : (0 : ℤ) ≤ m.length * B := by positivity
    have hsplit : (k.length : ℤ) * B = l.length * B + m.length * B := by rw [hlen]; push_cast; ring
    obtain ⟨rfl, p1, p2⟩ := ih1 (fun a ha => hw a (hk.mem_iff.mpr (by simp [ha]))) (by omega)
    obtain ⟨rfl, q1, q2⟩ := ih2 (fun a ha => hw a (hk.mem_iff.mpr (by simp [ha]))) (by omega)
    refine ⟨?_, by omega, by omega⟩
    show F64.ofRat _ = _
    rw [← Int.cast_add, ← hsum, F64.ofRat_int (by rw [abs_of_nonneg (by omega)]; omega)]
  | @fma a p l k u hp _ hk ih =>
    have hlen : k.length = l.length + 1 := by rw [hk.length_eq, List.length_cons]
    have hsum : (k.map f).sum = f a + (l.map f).sum := by rw [(hk.map f).sum_eq, List.map_cons, List.sum_cons]
    have h0 : (0 : ℤ) ≤ l.length * B := by positivity
    have hsplit : (k.length : ℤ) * B = l.length * B + B := by rw [hlen]; push_cast; ring
    obtain ⟨⟨b1, b2⟩, h2⟩ := hw a (hk.mem_iff.mpr (by simp))
    obtain ⟨m, n, rfl, hmn⟩ := h2 p hp
    obtain ⟨rfl, p1, p2⟩ := ih (fun a ha => hw a (hk.mem_iff.mpr (by simp [ha]))) (by omega)
    refine ⟨?_, by omega, by omega⟩
    show F64.ofRat ((m : ℚ) * n + _) = _
    rw [← Int.cast_mul, ← Int.cast_add, hmn, ← hsum, F64.ofRat_int (by rw [abs_of_nonneg (by omega)]; omega)]

theorem int_fin {n : ℤ} (h0 : 0 ≤ n) (h : n ≤ 2 ^ 53) : F64.ofInt n = .fin (n : ℚ) := F64.ofInt_exact (by rw [abs_of_nonneg h0]; exact h)

theorem int_mul {m n : ℤ} (h0 : 0 ≤ m * n) (h : m * n ≤ 2 ^ 53) : F64.mul (.fin (m : ℚ)) (.fin (n : ℚ)) = .fin ((m * n : ℤ) : ℚ) := by
  show F64.ofRat ((m : ℚ) * n) = _
  rw [← Int.cast_mul]
  exact F64.ofRat_int (by rw [abs_of_nonneg h0]; exact h)

theorem tofTicks_eq (h : Hit) : tofTicks h = tofOf h := by
  unfold tofTicks tofOf
  cases h.tof <;> rfl

/-- The sums over decoded hits. -/
theorem self_sum (c : Hit → ℤ) (B : ℤ) (hB : 0 ≤ B ∧ B ≤ 2 ^ 22) (M : List Hit) (hM : ∀ h ∈ M, 0 ≤ c h ∧ c h ≤ B) (hlen : M.length ≤ 2 ^ 31) {v : F64}
    (h : FastSum (selfWays c) M v) : v = .fin ((total c M : ℤ) : ℚ) := by
  refine (fastSum_exact c B h (fun a ha => ⟨hM a ha, ?_⟩) hB.1 ?_).1
  · intro p hp
    simp only [selfWays, List.mem_singleton] at hp
    subst hp
    have := hM a ha
    refine ⟨c a, 1, ?_, by ring⟩
    rw [int_fin this.1 (by omega), one_fin]
  · have : (M.length : ℤ) * B ≤ 2 ^ 31 * 2 ^ 22 := mul_le_mul (by exact_mod_cast hlen) hB.2 hB.1 (by norm_num)
    omega

theorem weight_bounds {c : Hit → ℤ} {h : Hit} (hc : 0 ≤ c h ∧ c h < 1024) (hd : Decoded h) : 0 ≤ c h * h.tot ∧ c h * h.tot ≤ 2 ^ 20 := by
  have := hd.tot
  refine ⟨mul_nonneg hc.1 this.1, ?_⟩
  calc c h * h.tot ≤ 1024 * 1024 := mul_le_mul (by omega) (by omega) this.1 (by norm_num)
    _ = 2 ^ 20 := by norm_num

theorem plain_sum (c : Hit → ℤ) (M : List Hit) (hM : ∀ h ∈ M, Decoded h) (hc : ∀ h ∈ M, 0 ≤ c h ∧ c h < 1024) (hlen : M.length ≤ 2 ^ 31)
    {v : F64} (h : FastSum (plainWays c) M v) : v = .fin ((total (fun h => c h * h.tot) M : ℤ) : ℚ) := by
  refine (fastSum_exact (fun h => c h * h.tot) (2 ^ 20) h (fun a ha => ⟨weight_bounds (hc a ha) (hM a ha), ?_⟩) (by norm_num) (by omega)).1
  intro p hp
  simp only [plainWays, List.mem_singleton] at hp
  subst hp
  have h1 := hc a ha
  have h2 := (hM a ha).tot
  exact ⟨c a, a.tot, by rw [int_fin h1.1 (by omega), int_fin h2.1 (by omega)], rfl⟩

theorem weight_sum (s : ℤ) (hs : 1 ≤ s ∧ s ≤ 4) (c : Hit → ℤ) (M : List Hit) (hM : ∀ h ∈ M, Decoded h)
    (hc : ∀ h ∈ M, 0 ≤ c h ∧ c h < 1024) (hlen : M.length ≤ 2 ^ 31)
    {v : F64} (h : FastSum (weightWays (F64.ofRat (s : ℚ)) c) M v) : v = .fin ((s * total (fun h => c h * h.tot) M : ℤ) : ℚ) := by
  have hsr : F64.ofRat (s : ℚ) = .fin (s : ℚ) := F64.ofRat_int (by rw [abs_of_nonneg (by omega)]; omega)
  have hsum : s * total (fun h => c h * h.tot) M = (M.map fun h => s * (c h * h.tot)).sum := by
    unfold total
    clear hM hc hlen h
    induction M with
    | nil => simp
    | cons a M ih => rw [List.map_cons, List.sum_cons, List.map_cons, List.sum_cons, mul_add, ih]
  rw [hsum]
  refine (fastSum_exact (fun h => s * (c h * h.tot)) (2 ^ 22) h (fun a ha => ?_) (by norm_num) (by omega)).1
  have h0 := weight_bounds (hc a ha) (hM a ha)
  have h1 := hc a ha
  have h2 := (hM a ha).tot
  have hsc : 0 ≤ s * c a ∧ s * c a ≤ 2 ^ 53 := ⟨mul_nonneg (by omega) h1.1, by nlinarith⟩
  have hst : 0 ≤ s * a.tot ∧ s * a.tot ≤ 2 ^ 53 := ⟨mul_nonneg (by omega) h2.1, by nlinarith⟩
  refine ⟨⟨mul_nonneg (by omega) h0.1, ?_⟩, ?_⟩
  · calc s * (c a * a.tot) ≤ 4 * 2 ^ 20 := mul_le_mul hs.2 h0.2 h0.1 (by norm_num)
      _ = 2 ^ 22 := by norm_num
  · intro p hp
    simp only [weightWays, List.mem_cons, List.not_mem_nil, or_false] at hp
    rw [hsr, int_fin h1.1 (by omega), int_fin h2.1 (by omega), int_mul hsc.1 hsc.2, int_mul h0.1 (by omega), int_mul hst.1 hst.2] at hp
    rcases hp with rfl | rfl | rfl
    · exact ⟨s * c a, a.tot, rfl, by ring⟩
    · exact ⟨s, c a * a.tot, rfl, rfl⟩
    · exact ⟨s * a.tot, c a, rfl, by ring⟩

theorem mid_of_bounds {p : ℚ} (h1 : 1 / 2 ^ 64 ≤ p) (h2 : p ≤ 2 ^ 64) : Mid p := by
  refine Or.inr ⟨le_trans ?_ h1, le_trans h2 ?_⟩
  · calc (2 : ℚ) ^ (-300 : ℤ) ≤ 2 ^ (-64 : ℤ) := zpow_le_zpow_right₀ (by norm_num) (by norm_num)
      _ = 1 / 2 ^ 64 := by norm_num
  · calc (2 : ℚ) ^ 64 = 2 ^ (64 : ℤ) := by norm_num
      _ ≤ 2 ^ (300 : ℤ) := zpow_le_zpow_right₀ (by norm_num) (by norm_num)

theorem mid_ratio {X T : ℤ} (hX : 0 ≤ X ∧ X ≤ 2 ^ 53) (hT : 0 < T ∧ T ≤ 2 ^ 53) : Mid ((X : ℚ) / T) := by
  rcases eq_or_lt_of_le hX.1 with h | h
  · left; rw [← h]; simp
  · have hT0 : (0 : ℚ) < T := by exact_mod_cast hT.1
    have hT1 : (1 : ℚ) ≤ T := by exact_mod_cast hT.1
    have hT2 : (T : ℚ) ≤ 2 ^ 53 := by exact_mod_cast hT.2
    have hX1 : (1 : ℚ) ≤ X := by exact_mod_cast h
    have hX2 : (X : ℚ) ≤ 2 ^ 53 := by exact_mod_cast hX.2
    apply mid_of_bounds
    · rw [div_le_div_iff₀ (by norm_num) hT0]
      nlinarith
    · rw [div_le_iff₀ hT0]
      nlinarith

/-- A quotient of integers in either form: two roundings. -/
theorem quotient_near {X T : ℤ} (hX : 0 ≤ X ∧ X ≤ 2 ^ 53) (hT : 0 < T ∧ T ≤ 2 ^ 53) {v : F64}
    (h : FastQuotient (.fin (X : ℚ)) (.fin (T : ℚ)) v) : Near 2 v ((X : ℚ) / T) := by
  have hT0 : (0 : ℚ) < T := by exact_mod_cast hT.1
  have hX0 : (0 : ℚ) ≤ X := by exact_mod_cast hX.1
  have hm := mid_ratio hX hT
  cases h with
  | div => exact near_mono (near_div (near_exact _) hT0 hm (by norm_num)) hm.nonneg (by norm_num)
  | inv =>
    have h1 : Near 1 (F64.div (F64.ofRat 1) (.fin (T : ℚ))) (((1 : ℤ) : ℚ) / T) := by
      rw [one_fin]
      exact near_div (near_exact _) hT0 (mid_ratio ⟨by norm_num, by norm_num⟩ hT) (by norm_num)
    have h2 := near_mul (near_exact (X : ℚ)) h1 hX0 (by push_cast; positivity)
      (by rw [Int.cast_one, mul_one_div]; exact hm) (by norm_num)
    rw [Int.cast_one, mul_one_div] at h2
    exact h2

/-- C116: wherever the compiler puts the factor and however it adds and divides, a coordinate is the weighted mean up to three
roundings. -/
theorem position_near (s : ℤ) (hs : 1 ≤ s ∧ s ≤ 4) (c : Hit → ℤ) (M : List Hit) (hM : ∀ h ∈ M, Decoded h)
    (hc : ∀ h ∈ M, 0 ≤ c h ∧ c h < 1024) (hlen : M.length ≤ 2 ^ 31) (htot : total Hit.tot M ≠ 0) {v : F64}
    (h : FastPosition (F64.ofRat (s : ℚ)) c M v) : Near 3 v (s * totMean c M) ∧ 0 ≤ totMean c M := by
  have hsr : F64.ofRat (s : ℚ) = .fin (s : ℚ) := F64.ofRat_int (by rw [abs_of_nonneg (by omega)]; omega)
  have ht := total_bounds Hit.tot (2 ^ 10) M (fun h hh => by have := (hM h hh).tot; omega)
  have hx := total_bounds (fun h => c h * h.tot) (2 ^ 20) M (fun h hh => weight_bounds (hc h hh) (hM h hh))
  have hT : 0 < total Hit.tot M ∧ total Hit.tot M ≤ 2 ^ 53 := by omega
  have hX : 0 ≤ total (fun h => c h * h.tot) M ∧ total (fun h => c h * h.tot) M ≤ 2 ^ 53 := by omega
  have hsX : 0 ≤ s * total (fun h => c h * h.tot) M ∧ s * total (fun h => c h * h.tot) M ≤ 2 ^ 53 := by
    refine ⟨mul_nonneg (by omega) hX.1, ?_⟩
    calc s * total (fun h => c h * h.tot) M ≤ 4 * 2 ^ 51 := mul_le_mul hs.2 (by omega) hX.1 (by norm_num)
      _ = 2 ^ 53 := by norm_num
  have hself : ∀ t, FastSum (selfWays Hit.tot) M t → t = .fin ((total Hit.tot M : ℤ) : ℚ) := fun t =>
    self_sum Hit.tot (2 ^ 10) (by norm_num) M (fun h hh => by have := (hM h hh).tot; omega) hlen
  have hTq : (0 : ℚ) < total Hit.tot M := by exact_mod_cast hT.1
  have hXq : (0 : ℚ) ≤ total (fun h => c h * h.tot) M := by exact_mod_cast hX.1
  have hsq : (0 : ℚ) ≤ s := by exact_mod_cast (by omega : (0 : ℤ) ≤ s)
  have hval : (s : ℚ) * totMean c M = ((s * total (fun h => c h * h.tot) M : ℤ) : ℚ) / total Hit.tot M := by
    unfold totMean
    push_cast
    ring
  have hmid := mid_ratio hsX hT
  refine ⟨?_, by unfold totMean; positivity⟩
  cases h with
  | inside h1 h2 h3 =>
    rw [hself _ h2, weight_sum s hs c M hM hc hlen h1] at h3
    rw [hval]
    exact near_mono (quotient_near hsX hT h3) hmid.nonneg (by norm_num)
  | before h1 h2 h3 =>
    rw [hself _ h2, plain_sum c M hM hc hlen h1, hsr, int_mul hsX.1 hsX.2] at h3
    rw [hval]
    exact near_mono (quotient_near hsX hT h3) hmid.nonneg (by norm_num)
  | after h1 h2 h3 =>
    rw [hself _ h2, plain_sum c M hM hc hlen h1] at h3
    have h4 := quotient_near hX hT h3
    rw [hsr]
    refine near_mul (near_exact (s : ℚ)) h4 hsq (by positivity) ?_ (by norm_num)
    have : (s : ℚ) * ((total (fun h => c h * h.tot) M : ℚ) / total Hit.tot M) =
        ((s * total (fun h => c h * h.tot) M : ℤ) : ℚ) / total Hit.tot M := by push_cast; ring
    rw [this]
    exact hmid
  | factor h1 h2 h3 =>
    rw [hself _ h2, hsr] at h3
    have h4 := quotient_near ⟨by omega, by omega⟩ hT h3
    rw [plain_sum c M hM hc hlen h1]
    have e : (total (fun h => c h * h.tot) M : ℚ) * ((s : ℚ) / total Hit.tot M) =
        ((s * total (fun h => c h * h.tot) M : ℤ) : ℚ) / total Hit.tot M := by push_cast; ring
    have h5 := near_mul (near_exact (total (fun h => c h * h.tot) M : ℚ)) h4 hXq (by positivity) (by rw [e]; exact hmid) (by norm_num)
    rw [e] at h5
    rw [hval]
    exact near_mono h5 hmid.nonneg (by norm_num)

/-- C116: every event that the compiler may make of a cluster is the event of the cluster, up to three roundings. -/
theorem c116_event (s : ℤ) (hs : 1 ≤ s ∧ s ≤ 4) (M : List Hit) (hM : ∀ h ∈ M, Decoded h) (hlen : M.length ≤ 2 ^ 31)
    (htot : total Hit.tot M ≠ 0) (e : Neutron) (he : FastCentroid (F64.ofRat (s : ℚ)) M e) :
    e.nHits = M.length ∧ Approx (1 / 2 ^ 51) e.x (s * totMean Hit.x M) ∧ Approx (1 / 2 ^ 51) e.y (s * totMean Hit.y M) ∧
      e.tot = .fin (total Hit.tot M) ∧ Approx (1 / 2 ^ 51) e.tof ((total tofOf M : ℚ) / M.length) := by
  have hsq : (0 : ℚ) ≤ s := by exact_mod_cast (by omega : (0 : ℤ) ≤ s)
  have hne : M ≠ [] := by rintro rfl; simp [total] at htot
  have hn : 0 < M.length := List.length_pos_iff.mpr hne
  obtain ⟨x1, x2⟩ := position_near s hs Hit.x M hM (fun h hh => (hM h hh).x) hlen htot he.x
  obtain ⟨y1, y2⟩ := position_near s hs Hit.y M hM (fun h hh => (hM h hh).y) hlen htot he.y
  refine ⟨he.nHits, near_approx x1 (mul_nonneg hsq x2) (by norm_num), near_approx y1 (mul_nonneg hsq y2) (by norm_num),
    self_sum Hit.tot (2 ^ 10) (by norm_num) M (fun h hh => by have := (hM h hh).tot; omega) hlen he.tot, ?_⟩
  obtain ⟨f, f1, f2⟩ := he.tof
  have hf : f = .fin ((total tofTicks M : ℤ) : ℚ) := self_sum tofTicks (2 ^ 22) (by norm_num) M (fun h hh => by
    rw [tofTicks_eq]
    exact (hM h hh).tofBounds) hlen f1
  have htt : total tofTicks M = total tofOf M := by
    unfold total
    congr 1
    exact List.map_congr_left fun h _ => tofTicks_eq h
  have hb := total_bounds tofOf (2 ^ 22) M (fun h hh => (hM h hh).tofBounds)
  rw [hf, htt, int_fin (by omega) (by omega)] at f2
  have hq := quotient_near ⟨hb.1, by omega⟩ ⟨by omega, by omega⟩ f2
  rw [Int.cast_natCast] at hq
  refine near_approx hq ?_ (by norm_num)
  have : (0 : ℚ) ≤ total tofOf M := by exact_mod_cast hb.1
  positivity

/-! ## The source's own order is one of the choices -/

theorem fastSum_exists {α : Type} {ways : α → List (F64 × F64)} (l : List α) (h : ∀ a ∈ l, ways a ≠ []) : ∃ v, FastSum ways l v := by
  induction l with
  | nil => exact ⟨_, .zero⟩
  | cons a l ih =>
    obtain ⟨v, hv⟩ := ih (fun b hb => h b (by simp [hb]))
    obtain ⟨p, hp⟩ := List.exists_mem_of_ne_nil _ (h a (by simp))
    exact ⟨_, .add (.one hp) hv (.refl _)⟩

/-- C116: the model of `Centroid::fit`, which computes as the source is written, is among the possible results. -/
theorem c116_written (s : ℤ) (hs : 1 ≤ s ∧ s ≤ 4) (M : List Hit) (hM : ∀ h ∈ M, Decoded h) (hlen : M.length ≤ 2 ^ 31) (hne : M ≠ []) :
    ∃ e, centroidFit true (F64.ofRat (s : ℚ)) M = .ok e ∧ FastCentroid (F64.ofRat (s : ℚ)) M e := by
  refine ⟨_, centroidFit_sums s ⟨by omega, hs.2⟩ M hne hlen hM, ?_⟩
  obtain ⟨t, ht⟩ := fastSum_exists (ways := selfWays Hit.tot) M (by simp [selfWays])
  have ht' := self_sum Hit.tot (2 ^ 10) (by norm_num) M (fun h hh => by have := (hM h hh).tot; omega) hlen ht
  obtain ⟨f, hf⟩ := fastSum_exists (ways := selfWays tofTicks) M (by simp [selfWays])
  have hf' := self_sum tofTicks (2 ^ 22) (by norm_num) M (fun h hh => by
    rw [tofTicks_eq]
    exact (hM h hh).tofBounds) hlen hf
  have htt : total tofTicks M = total tofOf M := by
    unfold total
    congr 1
    exact List.map_congr_left fun h _ => tofTicks_eq h
  obtain ⟨x, hx⟩ := fastSum_exists (ways := weightWays (F64.ofRat (s : ℚ)) Hit.x) M (by simp [weightWays])
  obtain ⟨y, hy⟩ := fastSum_exists (ways := weightWays (F64.ofRat (s : ℚ)) Hit.y) M (by simp [weightWays])
  have hx' := weight_sum s hs Hit.x M hM (fun h hh => (hM h hh).x) hlen hx
  have hy' := weight_sum s hs Hit.y M hM (fun h hh => (hM h hh).y) hlen hy
  rw [ht'] at ht
  rw [hf', htt] at hf
  rw [hx'] at hx
  rw [hy'] at hy
  exact ⟨.inside hx ht .inv, .inside hy ht .inv, ht, ⟨_, hf, .div⟩, rfl⟩

/-! ## The decisions of `ABS::fit` -/

theorem sub_fin {a b : ℚ} (h : |a - b| ≤ 2 ^ 60) : F64.sub (.fin a) (.fin b) = .fin (rndQ (a - b)) := by
  show F64.ofRat (a + -b) = _
  rw [← sub_eq_add_neg]
  refine F64.ofRat_fin (le_trans h ?_)
  calc (2 : ℚ) ^ 60 = 2 ^ (60 : ℤ) := by norm_num
    _ ≤ 2 ^ (1000 : ℤ) := zpow_le_zpow_right₀ (by norm_num) (by norm_num)

theorem add_fin {a b : ℚ} (h : |a + b| ≤ 2 ^ 60) : F64.add (.fin a) (.fin b) = .fin (rndQ (a + b)) := by
  show F64.ofRat (a + b) = _
  refine F64.ofRat_fin (le_trans h ?_)
  calc (2 : ℚ) ^ 60 = 2 ^ (60 : ℤ) := by norm_num
    _ ≤ 2 ^ (1000 : ℤ) := zpow_le_zpow_right₀ (by norm_num) (by norm_num)

theorem rnd_int_off (a : ℤ) (ha : |a| ≤ 2 ^ 20) (d : ℤ) (hd : |d| ≤ 1) : rndQ ((a : ℚ) + d * (1 / 2 ^ 32)) = (a : ℚ) + d * (1 / 2 ^ 32) := by
  refine rndQ_of_grid (a * 2 ^ 32 + d) (-32) ?_ (by norm_num) ?_
  · push_cast
    have : (2 : ℚ) ^ (-32 : ℤ) = 1 / 2 ^ 32 := by norm_num
    rw [this]
    ring
  · rw [abs_le] at *
    omega

theorem small_int {a : ℤ} (ha : |a| ≤ 2 ^ 20) : F64.ofInt a = .fin (a : ℚ) ∧ rndQ (a : ℚ) = a ∧ |(a : ℚ)| ≤ 2 ^ 20 :=
  ⟨F64.ofInt_exact (by omega), rndQ_int (by omega), by exact_mod_cast ha⟩

/-- Whatever side the terms stand on, the comparison decides the same. -/
theorem above_exact {f : ℚ} (hf : |f| ≤ 2 ^ 20) (hc : ∀ n : ℤ, f < n → f + 1 / 2 ^ 32 ≤ n) {a b : ℤ} (ha : |a| ≤ 2 ^ 20) (hb : |b| ≤ 2 ^ 20)
    {r : Bool} (h : FastAbove (.fin f) a b r) : r = decide ((b : ℚ) - a ≤ f) := by
  obtain ⟨a1, a2, a3⟩ := small_int ha
  obtain ⟨b1, b2, b3⟩ := small_int hb
  rw [abs_le] at hf a3 b3
  have gap : ¬ ((b : ℚ) - a ≤ f) → f + 1 / 2 ^ 32 ≤ (b : ℚ) - a := by
    intro hn
    have := hc (b - a) (by push_cast; linarith)
    push_cast at this
    exact this
  have hab : |b - a| ≤ 2 ^ 53 := by rw [abs_le] at *; omega
  have hba : |a - b| ≤ 2 ^ 53 := by rw [abs_le] at *; omega
  cases h with
  | written =>
    rw [a1, b1, sub_fin (by rw [abs_le]; constructor <;> linarith)]
    show decide _ = _
    rw [decide_eq_decide]
    constructor
    · intro h1
      by_contra hn
      have h2 := rndQ_mono (show (a : ℚ) + (1 : ℤ) * (1 / 2 ^ 32) ≤ b - f by have := gap hn; push_cast; linarith)
      rw [rnd_int_off a ha 1 (by norm_num)] at h2
      push_cast at h2
      have : (0 : ℚ) < 1 / 2 ^ 32 := by norm_num
      linarith
    · intro h1
      have h2 := rndQ_mono (show (b : ℚ) - f ≤ a by linarith)
      rwa [a2] at h2
  | left =>
    rw [a1, b1, add_fin (by rw [abs_le]; constructor <;> linarith)]
    show decide _ = _
    rw [decide_eq_decide]
    constructor
    · intro h1
      by_contra hn
      have h2 := rndQ_mono (show (a : ℚ) + f ≤ (b : ℚ) + (-1 : ℤ) * (1 / 2 ^ 32) by have := gap hn; push_cast; linarith)
      rw [rnd_int_off b hb (-1) (by norm_num)] at h2
      push_cast at h2
      have : (0 : ℚ) < 1 / 2 ^ 32 := by norm_num
      linarith
    · intro h1
      have h2 := rndQ_mono (show (b : ℚ) ≤ a + f by linarith)
      rwa [b2] at h2
  | diff =>
    rw [a1, b1, sub_fin (by rw [abs_le]; constructor <;> linarith)]
    show decide _ = _
    rw [← Int.cast_sub, rndQ_int hab]
  | neg =>
    rw [a1, b1, sub_fin (by rw [abs_le]; constructor <;> linarith)]
    show decide (-f ≤ _) = _
    rw [← Int.cast_sub, rndQ_int hba, decide_eq_decide]
    push_cast
    constructor <;> intro h <;> linarith

theorem below_exact {f : ℚ} (hf : |f| ≤ 2 ^ 20) (hc : ∀ n : ℤ, f < n → f + 1 / 2 ^ 32 ≤ n) {a b : ℤ} (ha : |a| ≤ 2 ^ 20) (hb : |b| ≤ 2 ^ 20)
    {r : Bool} (h : FastBelow (.fin f) a b r) : r = decide ((a : ℚ) - b ≤ f) := by
  refine above_exact hf hc hb ha ?_
  cases h with
  | written => exact .left
  | left => exact .written
  | diff => exact .diff
  | neg => exact .neg

theorem timely_exact (range : ℕ) {h : Hit} (hh : SmallHit h) (t : ℕ) {r : Bool} (ht : FastTimely range h t r) :
    r = F64.le (F64.abs (F64.sub h.spidertimeNs (F64.ofInt t))) (F64.ofInt range) := by
  have h25 : F64.ofRat 25 = .fin ((25 : ℤ) : ℚ) := by
    have := F64.ofRat_int (n := 25) (by norm_num)
    simpa using this
  have hlt := hh.time
  have hsp : F64.ofInt h.spidertime.toNat = .fin (((h.spidertime.toNat : ℤ)) : ℚ) := int_fin (by omega) (by omega)
  cases ht with
  | written => rfl
  | fused =>
    unfold Hit.spidertimeNs
    rw [hsp, h25, int_mul (by omega) (by omega)]
    congr 2
    cases F64.ofInt t with
    | nan => rw [F64.fma.eq_def]; simp only [F64.neg]; rw [int_mul (by omega) (by omega)]; rfl
    | inf b => rw [F64.fma.eq_def]; simp only [F64.neg]; rw [int_mul (by omega) (by omega)]; rfl
    | fin q =>
      show F64.ofRat _ = F64.ofRat _
      push_cast
      rfl

theorem fastAccepts_exact {p : AbsParams} {f : ℚ} (hp : ClearFeature p f) {h : Hit} (hh : SmallHit h) {s : Slot} (hs : SmallSlot s) {b : Bool}
    (hb : FastAccepts p h s b) : b = s.accepts p h := by
  obtain ⟨h1, h2, h3⟩ := hp
  obtain ⟨b0, b1, b2, b3, b4, t0, t1, t2, t3, t4, rfl⟩ := hb
  rw [h1] at t1 t2 t3 t4
  have w1 := above_exact h2 h3 hh.x hs.x.1 t1
  have w2 := below_exact h2 h3 hh.x hs.x.2 t2
  have w3 := above_exact h2 h3 hh.y hs.y.1 t3
  have w4 := below_exact h2 h3 hh.y hs.y.2 t4
  unfold Slot.accepts
  rw [h1, timely_exact _ hh _ t0, above_exact h2 h3 hh.x hs.x.1 .written, below_exact h2 h3 hh.x hs.x.2 .written,
    above_exact h2 h3 hh.y hs.y.1 .written, below_exact h2 h3 hh.y hs.y.2 .written, w1, w2, w3, w4]

theorem openSlot_small {l : Int} {h : Hit} (hh : SmallHit h) {s : Slot} (ho : openSlot l h = .ok s) : SmallSlot s := by
  unfold openSlot at ho
  split at ho
  · simp at ho
  · rw [Res.ok.injEq] at ho
    subst ho
    exact ⟨⟨hh.x, hh.x⟩, hh.y, hh.y⟩

theorem grow_small {h : Hit} (hh : SmallHit h) {s : Slot} (hs : SmallSlot s) : SmallSlot (s.grow h) := by
  obtain ⟨⟨a, b⟩, c, d⟩ := hs
  obtain ⟨x, y, -⟩ := hh
  constructor <;> simp only [Slot.grow] <;> rw [abs_le] at * <;> rw [abs_le] at * <;> omega

theorem placeInBy_eq {p : AbsParams} {f : ℚ} (hp : ClearFeature p f) {h : Hit} (hh : SmallHit h) (acc : Hit → Slot → Bool)
    (hacc : ∀ s, FastAccepts p h s (acc h s)) (ss : List Slot) (hss : ∀ s ∈ ss, SmallSlot s) :
    placeInBy acc h ss = placeIn p h ss ∧ ∀ r, placeIn p h ss = .ok (some r) → ∀ s ∈ r.1, SmallSlot s := by
  induction ss with
  | nil => exact ⟨rfl, by simp [placeIn]⟩
  | cons s ss ih =>
    obtain ⟨ih1, ih2⟩ := ih (fun t ht => hss t (by simp [ht]))
    have hs := hss s (by simp)
    have ha := fastAccepts_exact hp hh hs (hacc s)
    rw [placeInBy, placeIn, ih1, ha]
    refine ⟨rfl, ?_⟩
    intro r hr
    split_ifs at hr with h0 h1
    · cases ho : openSlot s.label h with
      | ok s' =>
        rw [ho] at hr
        simp only [Res.ok.injEq, Option.some.injEq] at hr
        subst hr
        intro t ht
        rcases List.mem_cons.mp ht with rfl | ht
        · exact openSlot_small hh ho
        · exact hss t (by simp [ht])
      | throws e => rw [ho] at hr; simp at hr
      | ub u => rw [ho] at hr; simp at hr
    · simp only [Res.ok.injEq, Option.some.injEq] at hr
      subst hr
      intro t ht
      rcases List.mem_cons.mp ht with rfl | ht
      · exact grow_small hh hs
      · exact hss t (by simp [ht])
    · cases hq : placeIn p h ss with
      | ok o =>
        rw [hq] at hr
        cases o with
        | none => simp at hr
        | some q =>
          simp only [Res.ok.injEq, Option.some.injEq] at hr
          subst hr
          intro t ht
          rcases List.mem_cons.mp ht with rfl | ht
          · exact hs
          · exact ih2 q hq t ht
      | throws e => rw [hq] at hr; simp at hr
      | ub u => rw [hq] at hr; simp at hr

theorem fitStepBy_eq {p : AbsParams} {f : ℚ} (hp : ClearFeature p f) {h : Hit} (hh : SmallHit h) (acc : Hit → Slot → Bool)
    (hacc : ∀ s, FastAccepts p h s (acc h s)) (i : ℕ) (st : FitState) (hss : ∀ s ∈ st.slots, SmallSlot s) :
    fitStepBy acc i h st = fitStep p i h st ∧ ∀ st', fitStep p i h st = .ok st' → ∀ s ∈ st'.slots, SmallSlot s := by
  obtain ⟨h1, h2⟩ := placeInBy_eq hp hh acc hacc st.slots hss
  unfold fitStepBy fitStep
  rw [h1]
  refine ⟨rfl, ?_⟩
  intro st' hst
  cases hq : placeIn p h st.slots with
  | ok o =>
    rw [hq] at hst
    cases o with
    | some q =>
      simp only [Res.ok.injEq] at hst
      subst hst
      exact h2 q hq
    | none =>
      simp only at hst
      cases ho : openSlot st.maxLabel h with
      | ok s =>
        rw [ho] at hst
        simp only [Res.ok.injEq] at hst
        subst hst
        intro t ht
        rcases List.mem_or_eq_of_mem_set ht with ht | rfl
        · exact hss t ht
        · exact openSlot_small hh ho
      | throws e => rw [ho] at hst; simp at hst
      | ub u => rw [ho] at hst; simp at hst
  | throws e => rw [hq] at hst; simp at hst
  | ub u => rw [hq] at hst; simp at hst

theorem fitLoopBy_eq {p : AbsParams} {f : ℚ} (hp : ClearFeature p f) (acc : ℕ → Hit → Slot → Bool) (hits : List Hit)
    (hh : ∀ h ∈ hits, SmallHit h) (hacc : ∀ i, ∀ h ∈ hits, ∀ s, FastAccepts p h s (acc i h s)) (i : ℕ) (st : FitState)
    (hss : ∀ s ∈ st.slots, SmallSlot s) : fitLoopBy acc i hits st = fitLoop p i hits st := by
  induction hits generalizing i st with
  | nil => rfl
  | cons h hits ih =>
    obtain ⟨h1, h2⟩ := fitStepBy_eq hp (hh h (by simp)) (acc i) (hacc i h (by simp)) i st hss
    rw [fitLoopBy, fitLoop, h1]
    cases hq : fitStep p i h st with
    | ok st' => exact ih (fun g hg => hh g (by simp [hg])) (fun j g hg => hacc j g (by simp [hg])) (i + 1) st' (h2 st' hq)
    | throws e => rfl
    | ub u => rfl

/-- C116: the clusters do not depend on how the compiler writes the conditions of the box search, unless the feature size lies
just below an integer.  The decisions need not even be the same in all rounds. -/
theorem c116_fit {p : AbsParams} {f : ℚ} (hp : ClearFeature p f) (acc : ℕ → Hit → Slot → Bool) (hits : List Hit)
    (hh : ∀ h ∈ hits, SmallHit h) (hacc : ∀ i, ∀ h ∈ hits, ∀ s, FastAccepts p h s (acc i h s)) (n : ℕ) (l : Int) (labels : List Int) :
    fitLoopBy acc 0 hits ⟨initSlots n, l, labels⟩ = fitLoop p 0 hits ⟨initSlots n, l, labels⟩ := by
  refine fitLoopBy_eq hp acc hits hh hacc 0 _ ?_
  intro s hs
  simp only [initSlots, List.mem_map] at hs
  obtain ⟨i, -, rfl⟩ := hs
  constructor <;> simp

/-- The decision as written is one of the choices. -/
theorem accepts_fast (p : AbsParams) (h : Hit) (s : Slot) : FastAccepts p h s (s.accepts p h) :=
  ⟨_, _, _, _, _, .written, .written, .written, .written, .written, rfl⟩

/-- C116: with a feature size just below 5 the forms of the conditions disagree. -/
theorem c116_false_box : ∃ (p : AbsParams) (h : Hit) (s : Slot) (b : Bool), SmallHit h ∧ SmallSlot s ∧ 0 < s.size ∧
    p.feature = .fin (5 - 1 / 2 ^ 50) ∧ F64.ofRat (5 - 1 / 2 ^ 50) = .fin (5 - 1 / 2 ^ 50) ∧ FastAccepts p h s b ∧ b ≠ s.accepts p h := by
  refine ⟨⟨.fin (5 - 1 / 2 ^ 50), 1, 75⟩, ⟨500, 500, 10, 0, 0, some 0, 0⟩, ⟨505, 500, 510, 510, 0, 0, 1⟩, false, ?_, ?_, by norm_num, rfl, ?_,
    ⟨_, _, _, _, _, .written, .diff, .written, .written, .written, ?_⟩, ?_⟩
  · constructor <;> decide
  · constructor <;> decide
  · decide +kernel
  · decide +kernel
  · decide +kernel

/-! ## Time bins -/

theorem lowerBoundGo_split (edges : List F64) (v : F64) (k : ℕ) (hk : ∀ i (hi : i < edges.length), F64.lt edges[i] v = decide (i < k))
    (fuel first len : ℕ) (h : first + len ≤ edges.length) (hf : len ≤ fuel) (h1 : first ≤ k) (h2 : k ≤ first + len) :
    lowerBoundGo edges v fuel first len = .ok k := by
  induction fuel generalizing first len with
  | zero =>
    have : first = k := by omega
    rw [lowerBoundGo, this]
  | succ fuel ih =>
    rw [lowerBoundGo]
    by_cases h0 : len = 0
    · have : first = k := by omega
      rw [if_pos h0, this]
    · rw [if_neg h0, List.getElem?_eq_getElem (by omega)]
      simp only [hk, decide_eq_true_eq]
      split_ifs with hm
      · exact ih _ _ (by omega) (by omega) (by omega) (by omega)
      · exact ih _ _ (by omega) (by omega) (by omega) (by omega)

theorem lowerBound_split (edges : List F64) (v : F64) (k : ℕ) (hk : ∀ i (hi : i < edges.length), F64.lt edges[i] v = decide (i < k))
    (hle : k ≤ edges.length) : lowerBound edges v = .ok k :=
  lowerBoundGo_split edges v k hk _ _ _ (by omega) (le_refl _) (by omega) (by omega)

theorem cut_exists (P : ℕ → Prop) (hP : ∀ i j, i ≤ j → P j → P i) (N : ℕ) : ∃ k ≤ N, ∀ i < N, P i ↔ i < k := by
  classical
  induction N with
  | zero => exact ⟨0, le_refl _, by simp⟩
  | succ N ih =>
    obtain ⟨k, h1, h2⟩ := ih
    by_cases hN : P N
    · exact ⟨N + 1, le_refl _, fun i hi => ⟨fun _ => hi, fun _ => hP i N (by omega) hN⟩⟩
    · refine ⟨k, by omega, fun i hi => ?_⟩
      rcases Nat.lt_or_ge i N with h | h
      · exact h2 i h
      · have : i = N := by omega
        subst this
        exact ⟨fun h => absurd h hN, fun h => by omega⟩

theorem two_pow_300 : (2 : ℚ) ^ 250 ≤ 2 ^ (300 : ℤ) := by
  calc (2 : ℚ) ^ 250 = 2 ^ (250 : ℤ) := by rw [← zpow_natCast]; rfl
    _ ≤ 2 ^ (300 : ℤ) := zpow_le_zpow_right₀ (by norm_num) (by norm_num)

theorem two_pow_neg : (2 : ℚ) ^ (-300 : ℤ) ≤ 1 / 2 ^ 250 := by
  calc (2 : ℚ) ^ (-300 : ℤ) ≤ 2 ^ (-250 : ℤ) := zpow_le_zpow_right₀ (by norm_num) (by norm_num)
    _ = 1 / 2 ^ 250 := by rw [zpow_neg, one_div, ← zpow_natCast]; rfl

/-- Moderate: zero, or between `2^-100` and `2^100`. -/
def Moderate (p : ℚ) : Prop := p = 0 ∨ (1 / 2 ^ 100 ≤ p ∧ p ≤ 2 ^ 100)

theorem Moderate.mid {p : ℚ} (h : Moderate p) : Mid p := by
  rcases h with h | ⟨h1, h2⟩
  · exact .inl h
  · refine .inr ⟨two_pow_neg.trans (le_trans ?_ h1), le_trans h2 (le_trans ?_ two_pow_300)⟩
    · exact one_div_le_one_div_of_le (by positivity) (pow_le_pow_right₀ (by norm_num) (by norm_num))
    · exact pow_le_pow_right₀ (by norm_num) (by norm_num)

/-- A quotient in either form. -/
theorem quotient_near' {k : ℕ} {a : F64} {p t : ℚ} (ha : Near k a p) (hp : 0 ≤ p) (ht : 0 < t) (hm : Mid (p / t)) (hm' : Mid (1 / t)) (hk : k ≤ 4) {v : F64}
    (h : FastQuotient a (.fin t) v) : Near (k + 2) v (p / t) := by
  cases h with
  | div => exact near_mono (near_div ha ht hm (by omega)) hm.nonneg (by omega)
  | inv =>
    have h1 : Near 1 (F64.div (F64.ofRat 1) (.fin t)) (1 / t) := by
      rw [one_fin]
      have := near_div (near_exact ((1 : ℤ) : ℚ)) ht (by rw [Int.cast_one]; exact hm') (by norm_num)
      rwa [Int.cast_one] at this
    have h2 := near_mul ha h1 hp hm'.nonneg (by rw [mul_one_div]; exact hm) (by omega)
    rw [mul_one_div] at h2
    exact h2

theorem mid_between {p a b : ℚ} (h : p = 0 ∨ (a ≤ p ∧ p ≤ b)) (ha : 1 / 2 ^ 100 ≤ a) (hb : b ≤ 2 ^ 100) : Mid p := by
  refine Moderate.mid ?_
  rcases h with h | h
  · exact .inl h
  · exact .inr ⟨ha.trans h.1, h.2.trans hb⟩

/-- Seconds from ticks, in any form: three roundings. -/
theorem seconds_near {t : ℚ} (ht : t = 0 ∨ (1 / 2 ^ 40 ≤ t ∧ t ≤ 2 ^ 53)) {v : F64} (h : FastSeconds (.fin t) v) : Near 3 v (t * 25 / 1000000000) := by
  have h25 : F64.ofRat 25 = .fin 25 := by
    have := F64.ofRat_int (n := 25) (by norm_num)
    simpa using this
  have hg : F64.ofRat 1000000000 = .fin 1000000000 := by
    have := F64.ofRat_int (n := 1000000000) (by norm_num)
    simpa using this
  have ht0 : 0 ≤ t := by
    rcases ht with h | h
    · exact h.ge
    · exact le_trans (by norm_num) h.1
  have m1 : Mid (t * 25) := by
    refine mid_between (a := 1 / 2 ^ 40) (b := 2 ^ 60) ?_ (by norm_num) (by norm_num)
    rcases ht with h | h
    · left; rw [h]; norm_num
    · right; constructor <;> linarith
  have m2 : Mid (t * 25 / 1000000000) := by
    refine mid_between (a := 1 / 2 ^ 80) (b := 2 ^ 60) ?_ (by norm_num) (by norm_num)
    rcases ht with h | h
    · left; rw [h]; norm_num
    · right; constructor <;> linarith
  have m3 : Mid (25 / 1000000000) := mid_between (a := 1 / 2 ^ 80) (b := 2 ^ 60) (.inr (by norm_num)) (by norm_num) (by norm_num)
  have m4 : Mid (1 / 1000000000) := mid_between (a := 1 / 2 ^ 80) (b := 2 ^ 60) (.inr (by norm_num)) (by norm_num) (by norm_num)
  cases h with
  | plain hq =>
    rw [hg, h25] at hq
    exact quotient_near' (near_mul (near_exact t) (near_exact 25) ht0 (by norm_num) m1 (by norm_num)) m1.nonneg (by norm_num) m2 m4 (by norm_num) hq
  | factor hq =>
    rw [hg, h25] at hq
    have h1 := quotient_near' (near_exact 25) (by norm_num) (by norm_num) m3 m4 (by norm_num) hq
    have h2 := near_mul (near_exact t) h1 ht0 m3.nonneg (by rw [← mul_div_assoc]; exact m2) (by norm_num)
    rw [← mul_div_assoc] at h2
    exact h2

/-- An edge, in any form: three roundings. -/
theorem edge_near {m : ℚ} (hm : 1 / 2 ^ 30 ≤ m ∧ m ≤ 2 ^ 30) {n : ℤ} (hn : 0 < n ∧ n < 2 ^ 31) {i : ℕ} (hi : (i : ℤ) ≤ n) {v : F64}
    (h : FastEdge (.fin m) n i v) : Near 3 v (m * i / n) := by
  have hn1 : F64.ofInt n = .fin (n : ℚ) := int_fin (by omega) (by omega)
  have hi1 : F64.ofInt (i : ℤ) = .fin (i : ℚ) := by
    rw [int_fin (by omega) (by omega), Int.cast_natCast]
  have hn2 : (1 : ℚ) ≤ n := by exact_mod_cast hn.1
  have hn3 : (n : ℚ) ≤ 2 ^ 31 := by exact_mod_cast hn.2.le
  have hn0 : (0 : ℚ) < n := by linarith
  have hm0 : (0 : ℚ) < m := lt_of_lt_of_le (by norm_num) hm.1
  have hi3 : (i : ℚ) ≤ 2 ^ 31 := by exact_mod_cast (by omega : (i : ℤ) ≤ 2 ^ 31)
  have hi0 : (0 : ℚ) ≤ i := Nat.cast_nonneg i
  have hI : i = 0 ∨ (1 : ℚ) ≤ i := by
    rcases Nat.eq_zero_or_pos i with h | h
    · exact .inl h
    · right; exact_mod_cast h
  have lo : ∀ q : ℚ, 1 / 2 ^ 40 ≤ q → 1 / 2 ^ 80 ≤ q / n := by
    intro q hq
    rw [le_div_iff₀ hn0]
    calc 1 / 2 ^ 80 * (n : ℚ) ≤ 1 / 2 ^ 80 * 2 ^ 31 := mul_le_mul_of_nonneg_left hn3 (by norm_num)
      _ ≤ 1 / 2 ^ 40 := by norm_num
      _ ≤ q := hq
  have hi' : ∀ q : ℚ, 0 ≤ q → q ≤ 2 ^ 64 → q / n ≤ 2 ^ 64 := fun q h0 hq => le_trans (div_le_self h0 hn2) hq
  have m1 : Mid (m * i) := by
    refine mid_between (a := 1 / 2 ^ 30) (b := 2 ^ 61) ?_ (by norm_num) (by norm_num)
    rcases hI with h | h
    · left; rw [h]; simp
    · right
      constructor
      · calc (1 : ℚ) / 2 ^ 30 ≤ m * 1 := by linarith
          _ ≤ m * i := mul_le_mul_of_nonneg_left h hm0.le
      · calc m * i ≤ 2 ^ 30 * 2 ^ 31 := mul_le_mul hm.2 hi3 hi0 (by norm_num)
          _ = 2 ^ 61 := by norm_num
  have m2 : Mid (m * i / n) := by
    refine mid_between (a := 1 / 2 ^ 80) (b := 2 ^ 64) ?_ (by norm_num) (by norm_num)
    rcases hI with h | h
    · left; rw [h]; simp
    · right
      constructor
      · refine lo _ ?_
        calc (1 : ℚ) / 2 ^ 40 ≤ 1 / 2 ^ 30 * 1 := by norm_num
          _ ≤ m * i := mul_le_mul hm.1 h (by norm_num) hm0.le
      · refine hi' _ (by positivity) ?_
        calc m * i ≤ 2 ^ 30 * 2 ^ 31 := mul_le_mul hm.2 hi3 hi0 (by norm_num)
          _ ≤ 2 ^ 64 := by norm_num
  have m3 : Mid ((i : ℚ) / n) := by
    refine mid_between (a := 1 / 2 ^ 80) (b := 2 ^ 64) ?_ (by norm_num) (by norm_num)
    rcases hI with h | h
    · left; rw [h]; simp
    · right
      exact ⟨lo _ (le_trans (by norm_num) h), hi' _ hi0 (le_trans hi3 (by norm_num))⟩
  have m4 : Mid (m / n) := mid_between (a := 1 / 2 ^ 80) (b := 2 ^ 64) (.inr ⟨lo _ (le_trans (by norm_num) hm.1),
    hi' _ hm0.le (le_trans hm.2 (by norm_num))⟩) (by norm_num) (by norm_num)
  have m5 : Mid (1 / (n : ℚ)) := mid_between (a := 1 / 2 ^ 80) (b := 2 ^ 64) (.inr ⟨lo _ (by norm_num), hi' _ (by norm_num) (by norm_num)⟩)
    (by norm_num) (by norm_num)
  cases h with
  | plain hq =>
    rw [hn1, hi1] at hq
    exact quotient_near' (near_mul (near_exact m) (near_exact (i : ℚ)) hm0.le hi0 m1 (by norm_num)) m1.nonneg hn0 m2 m5 (by norm_num) hq
  | part hq =>
    rw [hn1, hi1] at hq
    have h1 := quotient_near' (near_exact (i : ℚ)) hi0 hn0 m3 m5 (by norm_num) hq
    have h2 := near_mul (near_exact m) h1 hm0.le m3.nonneg (by rw [← mul_div_assoc]; exact m2) (by norm_num)
    rw [← mul_div_assoc] at h2
    exact h2
  | step hq =>
    rw [hn1] at hq
    have h1 := quotient_near' (near_exact m) hm0.le hn0 m4 m5 (by norm_num) hq
    have e : m / n * (i : ℚ) = m * i / n := by ring
    have h2 := near_mul h1 (near_exact (i : ℚ)) m4.nonneg hi0 (by rw [e]; exact m2) (by norm_num)
    rw [e] at h2
    rw [hi1]
    exact h2

theorem near_lt {s e : ℚ} {v w : F64} (hs : Near 3 v s) (he : Near 3 w e) (hs0 : 0 ≤ s) (he0 : 0 ≤ e) (hc : ClearOf s e) :
    F64.lt w v = decide (e < s) := by
  obtain ⟨a, rfl, a1, a2⟩ := near_three hs hs0 (by norm_num)
  obtain ⟨b, rfl, b1, b2⟩ := near_three he he0 (by norm_num)
  show decide (b < a) = decide (e < s)
  rw [decide_eq_decide]
  rcases hc with ⟨h1, h2⟩ | h2
  · refine iff_of_true ?_ h1
    have hs1 : 0 < s := lt_of_le_of_lt he0 h1
    rcases eq_or_lt_of_le he0 with h | h
    · subst h
      rw [zero_mul] at b2
      refine lt_of_le_of_lt b2 (lt_of_lt_of_le ?_ a1)
      exact mul_pos hs1 (by norm_num)
    · calc b ≤ e * (1 + 1 / 2 ^ 51) := b2
        _ < e * ((1 + 1 / 2 ^ 49) * (1 - 1 / 2 ^ 51)) := mul_lt_mul_of_pos_left (by norm_num) h
        _ = e * (1 + 1 / 2 ^ 49) * (1 - 1 / 2 ^ 51) := by ring
        _ ≤ s * (1 - 1 / 2 ^ 51) := mul_le_mul_of_nonneg_right h2 (by norm_num)
        _ ≤ a := a1
  · have h3 : s ≤ e := le_trans (le_mul_of_one_le_right hs0 (by norm_num)) h2
    refine iff_of_false (not_lt.mpr ?_) (not_lt.mpr h3)
    calc a ≤ s * (1 + 1 / 2 ^ 51) := a2
      _ ≤ s * ((1 + 1 / 2 ^ 49) * (1 - 1 / 2 ^ 51)) := mul_le_mul_of_nonneg_left (by norm_num) hs0
      _ = s * (1 + 1 / 2 ^ 49) * (1 - 1 / 2 ^ 51) := by ring
      _ ≤ e * (1 - 1 / 2 ^ 51) := mul_le_mul_of_nonneg_right h2 (by norm_num)
      _ ≤ b := b1

/-- C116: the bin of a time that is clear of all edges is the exact one, in whatever form the compiler computes the time and
the edges.  Missing: times closer than about `2^-49` to an edge, where the forms differ (`c116_false_bin`). -/
theorem c116_bin_partial {m : ℚ} (hm : 1 / 2 ^ 30 ≤ m ∧ m ≤ 2 ^ 30) {n : ℕ} (hn : 0 < n ∧ n < 2 ^ 31) (edges : List F64)
    (hlen : edges.length = n + 1) (he : ∀ i (hi : i < edges.length), FastEdge (.fin m) n i edges[i])
    {t : ℚ} (ht : t = 0 ∨ (1 / 2 ^ 40 ≤ t ∧ t ≤ 2 ^ 53)) {v : F64} (hv : FastSeconds (.fin t) v)
    (hc : ∀ i ≤ n, ClearOf (t * 25 / 1000000000) (m * i / n)) :
    ∃ k ≤ n + 1, lowerBound edges v = .ok k ∧ ∀ i ≤ n, m * i / n < t * 25 / 1000000000 ↔ i < k := by
  have hm0 : (0 : ℚ) < m := lt_of_lt_of_le (by norm_num) hm.1
  have hn0 : (0 : ℚ) < n := by exact_mod_cast hn.1
  have ht0 : 0 ≤ t := by
    rcases ht with h | h
    · exact h.ge
    · exact le_trans (by norm_num) h.1
  obtain ⟨k, hk1, hk2⟩ := cut_exists (fun i => m * i / n < t * 25 / 1000000000) (fun i j hij hj => lt_of_le_of_lt (by
    refine div_le_div_of_nonneg_right (mul_le_mul_of_nonneg_left ?_ hm0.le) hn0.le
    exact_mod_cast hij) hj) (n + 1)
  refine ⟨k, hk1, lowerBound_split edges v k ?_ (by omega), fun i hi => hk2 i (by omega)⟩
  intro i hi
  have h1 := edge_near hm (n := (n : ℤ)) ⟨by omega, by omega⟩ (i := i) (by omega) (he i hi)
  rw [Int.cast_natCast] at h1
  rw [near_lt (seconds_near ht hv) h1 (by positivity) (by positivity) (hc i (by omega)), decide_eq_decide]
  exact hk2 i (by omega)

/-- C116: otherwise the bin depends on the compiler: with the default bins, the time 4000 ticks (0.1 ms, the ninth edge) falls into
different bins as the compiler divides by `1e9` or multiplies by `25/1e9`. -/
theorem c116_false_bin : ∃ edges v w, TofBinning.default.getBinEdges = .ok edges ∧ FastSeconds (.fin 4000) v ∧ FastSeconds (.fin 4000) w ∧
    v = F64.div (F64.mul (.fin 4000) (F64.ofRat 25)) (F64.ofRat 1000000000) ∧ lowerBound edges v = .ok 10 ∧ lowerBound edges w = .ok 9 := by
  refine ⟨(List.range 1501).map (edgeAt (F64.ofRat (1 / 60)) 1500), _, _, ?_, .plain .div, .factor .div, rfl, ?_, ?_⟩
  · simp [TofBinning.getBinEdges, TofBinning.default]
  · decide +kernel
  · decide +kernel

/-! ## Pixels -/

/-- C116: the pixel of an event may depend on the compiler, too: the mean of columns 1 and 2 is 1.5, which is rounded up, but the
product with the reciprocal, as the source has it, is less. -/
theorem c116_false_pixel : ∃ (M : List Hit) (e e' : Neutron), (∀ h ∈ M, Decoded h) ∧ M.length = 2 ∧
    centroidFit true (F64.ofRat 1) M = .ok e ∧ FastCentroid (F64.ofRat 1) M e ∧ FastCentroid (F64.ofRat 1) M e' ∧
    toPixel (F64.ofRat 1) e.x = .ok 1 ∧ toPixel (F64.ofRat 1) e'.x = .ok 2 := by
  have hM : ∀ h ∈ [(⟨1, 1, 49, 0, 0, some 0, 0⟩ : Hit), ⟨2, 1, 49, 0, 0, some 0, 0⟩], Decoded h := by
    intro h hh
    simp only [List.mem_cons, List.not_mem_nil, or_false] at hh
    rcases hh with rfl | rfl <;> exact ⟨by norm_num, by norm_num, by norm_num, 0, rfl, by decide⟩
  obtain ⟨e, h1, h2⟩ := c116_written 1 (by norm_num) _ hM (by norm_num) (by simp)
  rw [Int.cast_one] at h1 h2
  have h3 : centroidFit true (F64.ofRat 1) [(⟨1, 1, 49, 0, 0, some 0, 0⟩ : Hit), ⟨2, 1, 49, 0, 0, some 0, 0⟩] =
      .ok ⟨F64.mul (.fin 147) (F64.div (F64.ofRat 1) (.fin 98)), F64.mul (.fin 98) (F64.div (F64.ofRat 1) (.fin 98)),
        F64.ofRat 0, .fin 98, 2⟩ := by decide +kernel
  rw [h3, Res.ok.injEq] at h1
  subst h1
  refine ⟨_, _, ⟨F64.div (.fin 147) (.fin 98), F64.mul (.fin 98) (F64.div (F64.ofRat 1) (.fin 98)), F64.ofRat 0, .fin 98, 2⟩, hM, rfl, h3, h2,
    ⟨?_, h2.y, h2.tot, h2.tof, h2.nHits⟩, by decide +kernel, by decide +kernel⟩
  have hs : FastSum (weightWays (F64.ofRat 1) Hit.x) [(⟨1, 1, 49, 0, 0, some 0, 0⟩ : Hit), ⟨2, 1, 49, 0, 0, some 0, 0⟩] (.fin 147) := by
    obtain ⟨x, hx⟩ := fastSum_exists (ways := weightWays (F64.ofRat ((1 : ℤ) : ℚ)) Hit.x)
      [(⟨1, 1, 49, 0, 0, some 0, 0⟩ : Hit), ⟨2, 1, 49, 0, 0, some 0, 0⟩] (by simp [weightWays])
    have := weight_sum 1 (by norm_num) Hit.x _ hM (fun h hh => (hM h hh).x) (by norm_num) hx
    rw [this, Int.cast_one] at hx
    norm_num [total] at hx
    exact hx
  exact .inside hs h2.tot .div

/-! ## Infinities and NaN -/

/-- C116: whatever the compiler makes of the tests, finite entries are placed as written. -/
theorem c116_finite (finite : F64 → Bool) (h : ∀ q, finite (.fin q) = true) (sr : F64) (edges : List F64) (n : ℕ) (d : Int) (x y t : ℚ) :
    placeEntryBy finite sr edges n d ⟨.fin x, .fin y, .fin t⟩ = placeEntry sr edges n d ⟨.fin x, .fin y, .fin t⟩ := by
  simp only [placeEntryBy, placeEntry, h, F64.isFinite]
  rfl

/-- C116: a cluster whose hits have no time over threshold makes an event at NaN; without the tests it is converted to a pixel
number, which is undefined. -/
theorem c116_false_nan : ∃ (h : Hit) (e : Neutron) (edges : List F64), centroidFit true (F64.ofRat 1) [h] = .ok e ∧ e.x = .nan ∧
    placeEntry (F64.ofRat 1) edges 2 517 e.entry = .ok none ∧
    placeEntryBy (fun _ => true) (F64.ofRat 1) edges 2 517 e.entry = .ub .floatToInt :=
  ⟨⟨3, 4, 0, 0, 0, some 20, 0⟩, ⟨.nan, .nan, .fin 20, .fin 0, 1⟩, [.fin 0, .fin 1, .fin 2], by decide +kernel, rfl, by decide +kernel, by decide +kernel⟩

/-! ## Examples -/

/-- A cluster of three hits for `c116_event` and `c116_written`. -/
example : (∀ h ∈ [(⟨5, 6, 20, 0, 0, some 1000, 0⟩ : Hit), ⟨6, 6, 30, 0, 0, some 1001, 1⟩, ⟨6, 7, 12, 0, 0, some 1003, 2⟩], Decoded h) ∧
    total Hit.tot [(⟨5, 6, 20, 0, 0, some 1000, 0⟩ : Hit), ⟨6, 6, 30, 0, 0, some 1001, 1⟩, ⟨6, 7, 12, 0, 0, some 1003, 2⟩] ≠ 0 := by
  constructor
  · intro h hh
    simp only [List.mem_cons, List.not_mem_nil, or_false] at hh
    rcases hh with rfl | rfl | rfl <;> exact ⟨by norm_num, by norm_num, by norm_num, _, rfl, by decide⟩
  · decide

/-- The default feature size 5 and 2.3 are clear. -/
example : ClearFeature ⟨.fin 5, 1, 75⟩ 5 ∧ ClearFeature ⟨.fin (23 / 10), 1, 75⟩ (23 / 10) := by
  refine ⟨⟨rfl, by norm_num, fun n h => ?_⟩, rfl, by rw [abs_le]; norm_num, fun n h => ?_⟩
  · have : (6 : ℤ) ≤ n := by
      by_contra hn
      have : (n : ℚ) ≤ 5 := by exact_mod_cast (by omega : n ≤ 5)
      linarith
    have : (6 : ℚ) ≤ n := by exact_mod_cast this
    linarith
  · have : (3 : ℤ) ≤ n := by
      by_contra hn
      have : (n : ℚ) ≤ 2 := by exact_mod_cast (by omega : n ≤ 2)
      linarith
    have : (3 : ℚ) ≤ n := by exact_mod_cast this
    linarith

/-- Small hits; and the decisions as written are admitted. -/
example : SmallHit ⟨500, 511, 10, 3, 1, some 5000, 123456789⟩ := ⟨by decide, by decide, by decide⟩

/-- A time clear of the edges 0, 1/2, 1 of two bins up to one second. -/
example : ∀ i ≤ 2, ClearOf ((10000000 : ℚ) * 25 / 1000000000) (1 * (i : ℕ) / (2 : ℕ)) := by
  intro i hi
  have : i = 0 ∨ i = 1 ∨ i = 2 := by omega
  rcases this with rfl | rfl | rfl
  · left; norm_num
  · right; norm_num
  · right; norm_num

end Verif.Props
