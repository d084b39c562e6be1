import Verif.Model.Image
import Verif.Lemmas.F64

/-!
# Bin edges (C34)
-/

namespace Verif.Props

open Verif

theorem ofRat_nonneg {q : ℚ} (h : 0 ≤ q) : F64.ofRat q = .inf false ∨ F64.ofRat q = .fin (rndQ q) := by
  unfold F64.ofRat
  simp only
  split_ifs
  · left; rw [decide_eq_false (not_lt.mpr h)]
  · right; rfl

theorem ofRat_le {p q : ℚ} (hp : 0 ≤ p) (h : p ≤ q) : F64.le (F64.ofRat p) (F64.ofRat q) = true := by
  have hq := le_trans hp h
  have hm := rndQ_mono h
  have h1 := rndQ_nonneg hp
  have h2 := rndQ_nonneg hq
  unfold F64.ofRat
  simp only
  rw [abs_of_nonneg h1, abs_of_nonneg h2]
  split_ifs with a b b
  · rw [decide_eq_false (not_lt.mpr hp), decide_eq_false (not_lt.mpr hq)]; rfl
  · exact absurd (le_trans a hm) b
  · rw [decide_eq_false (not_lt.mpr hq)]; rfl
  · simp [F64.le, hm]

/-- Multiplication by the loop counter, for a finite non-negative `max`. -/
theorem mul_counter (m : ℚ) (i : Nat) (hi : i < 2 ^ 31) : F64.mul (.fin m) (F64.ofInt i) = F64.ofRat (m * i) := by
  rw [F64.ofInt_exact (by rw [abs_of_nonneg (by omega)]; omega)]
  simp [F64.mul]

theorem div_bins (x : F64) (n : Nat) (h0 : 0 < n) (hn : n < 2 ^ 31) (hx : x = .inf false ∨ ∃ q, 0 ≤ q ∧ x = .fin q) :
    F64.div x (F64.ofInt n) = match x with
      | .fin q => F64.ofRat (q / n)
      | y => y := by
  have hn' : ((n : ℤ) : ℚ) = (n : ℚ) := by norm_cast
  have hpos : (0 : ℚ) < n := by exact_mod_cast h0
  rw [F64.ofInt_exact (by rw [abs_of_nonneg (by omega)]; omega), hn']
  rcases hx with rfl | ⟨q, hq, rfl⟩
  · simp only [F64.div]
    rw [decide_eq_false (not_lt.mpr hpos.le)]; rfl
  · simp only [F64.div]
    rw [if_neg hpos.ne']

theorem edgeAt_le (m : ℚ) (hm : 0 ≤ m) (n i j : Nat) (h0 : 0 < n) (hn : n < 2 ^ 31 - 1) (hij : i ≤ j) (hj : j ≤ n) :
    F64.le (edgeAt (.fin m) n i) (edgeAt (.fin m) n j) = true := by
  have hi0 : 0 ≤ m * i := by positivity
  have hj0 : 0 ≤ m * j := by positivity
  have hmono : m * i ≤ m * j := mul_le_mul_of_nonneg_left (by exact_mod_cast hij) hm
  have hpos : (0 : ℚ) < n := by exact_mod_cast h0
  unfold edgeAt
  rw [mul_counter m i (by omega), mul_counter m j (by omega)]
  have hle := ofRat_le hi0 hmono
  rcases ofRat_nonneg hi0 with e1 | e1 <;> rcases ofRat_nonneg hj0 with e2 | e2
  · rw [e1, e2, div_bins _ n h0 (by omega) (.inl rfl)]; rfl
  · rw [e1, e2] at hle; simp [F64.le] at hle
  · rw [e1, e2, div_bins _ n h0 (by omega) (.inl rfl), div_bins _ n h0 (by omega) (.inr ⟨_, rndQ_nonneg hi0, rfl⟩)]
    simp only
    rcases ofRat_nonneg (q := rndQ (m * i) / n) (div_nonneg (rndQ_nonneg hi0) hpos.le) with e | e <;> rw [e] <;> rfl
  · rw [e1, e2, div_bins _ n h0 (by omega) (.inr ⟨_, rndQ_nonneg hj0, rfl⟩),
      div_bins _ n h0 (by omega) (.inr ⟨_, rndQ_nonneg hi0, rfl⟩)]
    simp only
    exact ofRat_le (div_nonneg (rndQ_nonneg hi0) hpos.le) (div_le_div_of_nonneg_right (rndQ_mono hmono) hpos.le)

theorem edgeAt_zero (m : ℚ) (n : Nat) (h0 : 0 < n) (hn : n < 2 ^ 31 - 1) : edgeAt (.fin m) n 0 = .fin 0 := by
  have hz : F64.ofRat 0 = .fin 0 := by simpa using F64.ofRat_int (n := 0) (by norm_num)
  unfold edgeAt
  rw [mul_counter m 0 (by norm_num), Nat.cast_zero, mul_zero, hz, div_bins _ n h0 (by omega) (.inr ⟨0, le_refl _, rfl⟩)]
  simp only [zero_div]
  exact hz

/-- The number of bins and end time in force (absent ones take their default). -/
theorem getBinEdges_uniform (t : TofBinning) (n : Nat) (hc : t.custom = []) (hn : n < 2 ^ 31 - 1)
    (hb : t.numBins.getD 1500 = n) : t.getBinEdges =
      .ok ((List.range (n + 1)).map (edgeAt (t.tofMax.getD (F64.ofRat (1 / 60))) n)) := by
  unfold TofBinning.getBinEdges
  rw [if_neg (by simp [hc])]
  simp only [hb]
  rw [if_neg (by omega), if_neg (by omega)]
  congr 2

/-- C34: `n` uniform bins have `n + 1` edges, from 0, none below an earlier one.  `n` and the end time may come from the
settings or from the defaults. -/
theorem c34_uniform (t : TofBinning) (n : Nat) (m : ℚ) (hc : t.custom = []) (h0 : 0 < n) (hn : n < 2 ^ 31 - 1)
    (hb : t.numBins.getD 1500 = n) (hm : t.tofMax.getD (F64.ofRat (1 / 60)) = .fin m) (hm0 : 0 ≤ m) :
    ∃ edges, t.getBinEdges = .ok edges ∧ edges.length = n + 1 ∧ edges[0]? = some (.fin 0) ∧
      edges.Pairwise fun a b => F64.le a b = true := by
  refine ⟨_, getBinEdges_uniform t n hc hn hb, by simp, ?_, ?_⟩
  · rw [hm, List.getElem?_map, List.getElem?_range (by omega)]
    simp only [Option.map_some]
    rw [edgeAt_zero m n h0 hn]
  · rw [hm, List.pairwise_map]
    refine List.Pairwise.imp_of_mem ?_ (List.pairwise_lt_range (n := n + 1))
    intro a b ha hb' hab
    have := List.mem_range.mp hb'
    exact edgeAt_le m hm0 n a b h0 hn (by omega) (by omega)

/-- C34: custom edges are returned as they are, whatever the other settings. -/
theorem c34_custom (t : TofBinning) (h : t.custom ≠ []) : t.getBinEdges = .ok t.custom := by
  unfold TofBinning.getBinEdges
  rw [if_pos h]

/-- Size of one rounded edge. -/
theorem edge_bounds (m : ℚ) (h1 : (2 : ℚ) ^ (-900 : ℤ) ≤ m) (h2 : m ≤ 2 ^ (900 : ℤ)) (n i : Nat) (h0 : 0 < n)
    (hn : n < 2 ^ 31 - 1) (hi0 : 0 < i) (hi : i ≤ n) :
    ∃ q, edgeAt (.fin m) n i = .fin q ∧ m * i / n * (1 - 2 ^ (-53 : ℤ)) ^ 2 ≤ q ∧
      q ≤ m * i / n * (1 + 2 ^ (-53 : ℤ)) ^ 2 := by
  obtain ⟨e, he⟩ : ∃ e : ℚ, e = 2 ^ (-53 : ℤ) := ⟨_, rfl⟩
  rw [← he]
  have he0 : 0 < e := by rw [he]; exact two_zpow_pos _
  have he1 : e ≤ 1 / 2 := by rw [he]; norm_num
  have hm : 0 < m := lt_of_lt_of_le (two_zpow_pos _) h1
  have hiq : (1 : ℚ) ≤ i := by exact_mod_cast hi0
  have hnq : (1 : ℚ) ≤ n := by exact_mod_cast h0
  have hin : (i : ℚ) ≤ n := by exact_mod_cast hi
  have hn31 : (n : ℚ) ≤ 2 ^ (31 : ℤ) := by
    have : n ≤ 2 ^ 31 := by omega
    have : (n : ℚ) ≤ ((2 ^ 31 : ℕ) : ℚ) := by exact_mod_cast this
    norm_num at this ⊢; exact this
  -- product
  have hp1 : m ≤ m * i := le_mul_of_one_le_right hm.le hiq
  have hp2 : m * i ≤ 2 ^ (931 : ℤ) := by
    calc m * i ≤ 2 ^ (900 : ℤ) * 2 ^ (31 : ℤ) :=
          mul_le_mul h2 (le_trans hin hn31) (Nat.cast_nonneg _) (two_zpow_pos _).le
      _ = 2 ^ (931 : ℤ) := by rw [← zpow_add₀ (by norm_num)]; norm_num
  have hp0 : 0 < m * i := lt_of_lt_of_le hm hp1
  have r1 := abs_rndQ_sub_le (q := m * i) (by
    rw [abs_of_pos hp0]
    refine le_trans ?_ (le_trans h1 hp1)
    exact zpow_le_zpow_right₀ (by norm_num) (by norm_num))
  rw [abs_of_pos hp0, ← he, abs_le] at r1
  have hu0 : m * i * (1 - e) ≤ rndQ (m * i) := by linarith [r1.1]
  have hu1 : rndQ (m * i) ≤ m * i * (1 + e) := by linarith [r1.2]
  have hE : F64.mul (.fin m) (F64.ofInt i) = .fin (rndQ (m * i)) := by
    rw [mul_counter m i (by omega), F64.ofRat_fin]
    rw [abs_of_pos hp0]
    exact le_trans hp2 (zpow_le_zpow_right₀ (by norm_num) (by norm_num))
  obtain ⟨u, hu⟩ : ∃ u, u = rndQ (m * i) := ⟨_, rfl⟩
  rw [← hu] at hu0 hu1 hE
  have hnpos : (0 : ℚ) < n := by linarith
  have hupos : 0 < u := lt_of_lt_of_le (by apply mul_pos hp0; linarith) hu0
  have hdpos : 0 < u / n := div_pos hupos hnpos
  have hd1 : (2 : ℚ) ^ (-1022 : ℤ) ≤ u / n := by
    rw [le_div_iff₀ hnpos]
    calc (2 : ℚ) ^ (-1022 : ℤ) * n ≤ 2 ^ (-1022 : ℤ) * 2 ^ (31 : ℤ) :=
          mul_le_mul_of_nonneg_left hn31 (two_zpow_pos _).le
      _ = 2 ^ (-991 : ℤ) := by rw [← zpow_add₀ (by norm_num)]; norm_num
      _ ≤ 2 ^ (-901 : ℤ) := zpow_le_zpow_right₀ (by norm_num) (by norm_num)
      _ = 2 ^ (-900 : ℤ) * (1 / 2) := by
          rw [show (-901 : ℤ) = -900 + -1 by norm_num, zpow_add₀ (by norm_num)]; norm_num
      _ ≤ m * i * (1 - e) := by
          apply mul_le_mul (le_trans h1 hp1) (by linarith) (by norm_num) hp0.le
      _ ≤ u := hu0
  have hd2 : u / n ≤ 2 ^ (932 : ℤ) := by
    calc u / n ≤ u := div_le_self hupos.le hnq
      _ ≤ m * i * (1 + e) := hu1
      _ ≤ 2 ^ (931 : ℤ) * 2 := mul_le_mul hp2 (by linarith) (by linarith) (two_zpow_pos _).le
      _ = 2 ^ (932 : ℤ) := by rw [show (932 : ℤ) = 931 + 1 by norm_num, zpow_add₀ (by norm_num)]; norm_num
  have r2 := abs_rndQ_sub_le (q := u / n) (by rw [abs_of_pos hdpos]; exact hd1)
  rw [abs_of_pos hdpos, ← he, abs_le] at r2
  refine ⟨rndQ (u / n), ?_, ?_, ?_⟩
  · unfold edgeAt
    rw [hE, div_bins _ n h0 (by omega) (.inr ⟨u, hupos.le, rfl⟩)]
    simp only
    rw [F64.ofRat_fin]
    rw [abs_of_pos hdpos]
    exact le_trans hd2 (zpow_le_zpow_right₀ (by norm_num) (by norm_num))
  · have : m * i / n * (1 - e) ≤ u / n := by
      rw [div_mul_eq_mul_div]; exact div_le_div_of_nonneg_right hu0 hnpos.le
    have h3 : m * i / n * (1 - e) * (1 - e) ≤ u / n * (1 - e) :=
      mul_le_mul_of_nonneg_right this (by linarith)
    calc m * i / n * (1 - e) ^ 2 = m * i / n * (1 - e) * (1 - e) := by ring
      _ ≤ u / n * (1 - e) := h3
      _ ≤ rndQ (u / n) := by linarith [r2.1]
  · have : u / n ≤ m * i / n * (1 + e) := by
      rw [div_mul_eq_mul_div]; exact div_le_div_of_nonneg_right hu1 hnpos.le
    have h3 : u / n * (1 + e) ≤ m * i / n * (1 + e) * (1 + e) :=
      mul_le_mul_of_nonneg_right this (by linarith)
    calc rndQ (u / n) ≤ u / n * (1 + e) := by linarith [r2.2]
      _ ≤ m * i / n * (1 + e) * (1 + e) := h3
      _ = m * i / n * (1 + e) ^ 2 := by ring

/-- C34, stronger: for an end time of ordinary size the edges are finite and strictly increasing, edge `i` is
`i / n` of the end time and the last one the end time, up to a relative error of 2^-51. -/
theorem c34_strict (t : TofBinning) (n : Nat) (m : ℚ) (hc : t.custom = []) (h0 : 0 < n) (hn : n < 2 ^ 31 - 1)
    (hb : t.numBins.getD 1500 = n) (hm : t.tofMax.getD (F64.ofRat (1 / 60)) = .fin m)
    (h1 : (2 : ℚ) ^ (-900 : ℤ) ≤ m) (h2 : m ≤ 2 ^ (900 : ℤ)) :
    ∃ qs : List ℚ, t.getBinEdges = .ok (qs.map .fin) ∧ qs.length = n + 1 ∧ qs.Pairwise (· < ·) ∧
      ∀ (i : Nat) q, qs[i]? = some q → |q - m * i / n| ≤ m * i / n * 2 ^ (-51 : ℤ) := by
  have hmpos : 0 < m := lt_of_lt_of_le (two_zpow_pos _) h1
  have hnpos : (0 : ℚ) < n := by exact_mod_cast h0
  obtain ⟨e, he⟩ : ∃ e : ℚ, e = 2 ^ (-53 : ℤ) := ⟨_, rfl⟩
  have he0 : 0 < e := by rw [he]; exact two_zpow_pos _
  have he1 : e * 2 ^ (53 : ℕ) = 1 := by rw [he]; norm_num
  have hex : ∀ i : Nat, ∃ q, i ≤ n → edgeAt (.fin m) n i = .fin q ∧ m * i / n * (1 - e) ^ 2 ≤ q ∧
      q ≤ m * i / n * (1 + e) ^ 2 := by
    intro i
    by_cases hi : i ≤ n
    · rcases Nat.eq_zero_or_pos i with rfl | hpos
      · exact ⟨0, fun _ => ⟨edgeAt_zero m n h0 hn, by simp, by simp⟩⟩
      · rw [he]
        obtain ⟨q, hq⟩ := edge_bounds m h1 h2 n i h0 hn hpos hi
        exact ⟨q, fun _ => hq⟩
    · exact ⟨0, fun h => absurd h hi⟩
  choose f hf using hex
  refine ⟨(List.range (n + 1)).map f, ?_, by simp, ?_, ?_⟩
  · rw [getBinEdges_uniform t n hc hn hb, hm, List.map_map]
    refine congrArg Res.ok (List.map_congr_left ?_)
    intro i hi
    exact (hf i (by have := List.mem_range.mp hi; omega)).1
  · rw [List.pairwise_map]
    refine List.Pairwise.imp_of_mem ?_ (List.pairwise_lt_range (n := n + 1))
    intro a b ha hb' hab
    have hbn := List.mem_range.mp hb'
    obtain ⟨-, -, ha2⟩ := hf a (by omega)
    obtain ⟨-, hb1, -⟩ := hf b (by omega)
    refine lt_of_le_of_lt ha2 (lt_of_lt_of_le ?_ hb1)
    have hmn : 0 < m / n := div_pos hmpos hnpos
    have hab1 : (a : ℚ) + 1 ≤ b := by exact_mod_cast hab
    have ha31 : (a : ℚ) ≤ 2 ^ (31 : ℕ) := by
      have : a ≤ 2 ^ 31 := by omega
      exact_mod_cast this
    have ha0 : (0 : ℚ) ≤ a := Nat.cast_nonneg _
    have key : (a : ℚ) * (1 + e) ^ 2 < b * (1 - e) ^ 2 := by
      have hge : ((a : ℚ) + 1) * (1 - e) ^ 2 ≤ b * (1 - e) ^ 2 := mul_le_mul_of_nonneg_right hab1 (sq_nonneg _)
      have hae : (a : ℚ) * e ≤ 2 ^ (31 : ℕ) * e := mul_le_mul_of_nonneg_right ha31 he0.le
      have hsmall : (2 : ℚ) ^ (31 : ℕ) * e ≤ 1 / 16 := by norm_num at he1 ⊢; linarith
      nlinarith
    calc m * a / n * (1 + e) ^ 2 = m / n * (a * (1 + e) ^ 2) := by ring
      _ < m / n * (b * (1 - e) ^ 2) := mul_lt_mul_of_pos_left key hmn
      _ = m * b / n * (1 - e) ^ 2 := by ring
  · intro i q hq
    rw [List.getElem?_map] at hq
    obtain ⟨j, hj, rfl⟩ := Option.map_eq_some_iff.mp hq
    obtain ⟨hj1, hj2⟩ := List.getElem?_eq_some_iff.mp hj
    rw [List.getElem_range] at hj2
    subst hj2
    rw [List.length_range] at hj1
    obtain ⟨-, q1, q2⟩ := hf i (by omega)
    have h51 : (2 : ℚ) ^ (-51 : ℤ) = 4 * e := by rw [he]; norm_num
    have hx : 0 ≤ m * i / n := div_nonneg (mul_nonneg hmpos.le (Nat.cast_nonneg _)) hnpos.le
    have he2 : e ≤ 1 := by norm_num at he1; linarith
    rw [h51, abs_le]
    constructor <;> nlinarith

example : TofBinning.default.numBins.getD 1500 = (1500 : Nat) ∧ TofBinning.default.custom = [] := ⟨rfl, rfl⟩

/-- The default end time is of ordinary size. -/
example : ∃ m, TofBinning.default.tofMax.getD (F64.ofRat (1 / 60)) = .fin m ∧ (2 : ℚ) ^ (-900 : ℤ) ≤ m ∧ m ≤ 2 ^ (900 : ℤ) := by
  refine ⟨rndQ (1 / 60), ?_, ?_, ?_⟩
  · change F64.ofRat (1 / 60) = _
    rw [F64.ofRat_fin]
    rw [abs_of_pos (by norm_num)]
    calc (1 / 60 : ℚ) ≤ 2 ^ (0 : ℤ) := by norm_num
      _ ≤ 2 ^ (1000 : ℤ) := zpow_le_zpow_right₀ (by norm_num) (by norm_num)
  · rw [rndQ_eval (-6) (by norm_num) (by norm_num) (by norm_num)]
    calc (2 : ℚ) ^ (-900 : ℤ) ≤ 2 ^ (-7 : ℤ) := zpow_le_zpow_right₀ (by norm_num) (by norm_num)
      _ ≤ _ := by norm_num [roundNE, Int.floor_eq_iff]
  · rw [rndQ_eval (-6) (by norm_num) (by norm_num) (by norm_num)]
    calc _ ≤ (2 : ℚ) ^ (0 : ℤ) := by norm_num [roundNE, Int.floor_eq_iff]
      _ ≤ 2 ^ (900 : ℤ) := zpow_le_zpow_right₀ (by norm_num) (by norm_num)

example : (⟨none, none, [.fin 0, .fin 1]⟩ : TofBinning).custom ≠ [] := by decide

/-- C34, outside its assumption: no bins gives the single edge `0/0`, fewer throw or give no edge, and the largest
`int` overflows. -/
theorem c34_no_bins (m : ℚ) :
    (⟨some 0, some (.fin m), []⟩ : TofBinning).getBinEdges = .ok [.nan] ∧
    (⟨some (-1), some (.fin m), []⟩ : TofBinning).getBinEdges = .ok [] ∧
    (∀ k : Int, k < -1 → ∃ e, (⟨some k, some (.fin m), []⟩ : TofBinning).getBinEdges = .throws e) ∧
    (⟨some (2 ^ 31 - 1), some (.fin m), []⟩ : TofBinning).getBinEdges = .ub .signedOverflow := by
  refine ⟨?_, rfl, ?_, rfl⟩
  · rw [getBinEdges_uniform _ 0 rfl (by omega) rfl]
    have hz : F64.ofRat 0 = .fin 0 := by simpa using F64.ofRat_int (n := 0) (by norm_num)
    have e : edgeAt (.fin m) 0 0 = .nan := by
      unfold edgeAt F64.ofInt
      simp only [Nat.cast_zero, Int.cast_zero, hz, F64.mul, mul_zero, F64.div, if_true]
    simp only [List.range_succ, List.range_zero, List.nil_append, List.map_cons, List.map_nil, Option.getD_some]
    rw [show ((0 : ℕ) : ℤ) = 0 from rfl, e]
  · intro k hk
    refine ⟨"cannot create std::vector larger than max_size()", ?_⟩
    unfold TofBinning.getBinEdges
    simp only [ne_eq, not_true_eq_false, if_false, Option.getD_some]
    rw [if_neg (by omega), if_pos (by omega)]

end Verif.Props
