import Verif.Spec.Refine
import Verif.Props.Image
import Verif.Props.Ieee
import Mathlib.Algebra.BigOperators.Group.Finset.Basic
import Mathlib.Algebra.BigOperators.ModEq
import Mathlib.Algebra.BigOperators.Ring.Finset

/-! # C127: finer and coarser images -/

namespace Verif.Props

open Verif Verif.Spec

/-! ## Counting in parts -/

open Classical in
theorem countP_parts {α ι : Type*} (S : Finset ι) (P : α → Prop) (Q : ι → α → Prop) (l : List α)
    (h1 : ∀ e ∈ l, (P e ↔ ∃ s ∈ S, Q s e)) (h2 : ∀ e ∈ l, ∀ s t, Q s e → Q t e → s = t) :
    l.countP (fun e => P e) = ∑ s ∈ S, l.countP (fun e => Q s e) := by
  induction l with
  | nil => simp
  | cons e l ih =>
    simp only [List.countP_cons]
    rw [Finset.sum_add_distrib, ih (fun e he => h1 e (by simp [he])) (fun e he => h2 e (by simp [he]))]
    congr 1
    simp only [decide_eq_true_eq]
    by_cases hP : P e
    · obtain ⟨s, hs, hq⟩ := (h1 e (by simp)).mp hP
      rw [if_pos hP, Finset.sum_eq_single s, if_pos hq]
      · intro t _ hts
        rw [if_neg]
        exact fun ht => hts (h2 e (by simp) t s ht hq)
      · exact fun h => absurd hs h
    · rw [if_neg hP, Finset.sum_eq_zero]
      intro s hs
      rw [if_neg]
      exact fun hq => hP ((h1 e (by simp)).mpr ⟨s, hs, hq⟩)

/-! ## Wider time bins -/

theorem sorted_get {qs : List ℚ} (hs : qs.Pairwise (· < ·)) {a b : Nat} {va vb : ℚ} (hab : a ≤ b) (ha : qs[a]? = some va)
    (hb : qs[b]? = some vb) : va ≤ vb := by
  rcases Nat.lt_or_eq_of_le hab with h | rfl
  · obtain ⟨h1, rfl⟩ := List.getElem?_eq_some_iff.mp ha
    obtain ⟨h2, rfl⟩ := List.getElem?_eq_some_iff.mp hb
    exact (List.pairwise_iff_getElem.mp hs a b h1 h2 h).le
  · rw [ha] at hb
    injection hb with hb
    exact hb.le

theorem bin_between (qs : List ℚ) (p r : Nat) (hpr : p < r) (lo hi : ℚ) (hp : qs[p]? = some lo) (hr : qs[r]? = some hi) (s : ℚ)
    (h1 : lo < s) (h2 : s ≤ hi) : ∃ j ∈ Finset.Ico p r, InBin qs s j := by
  induction r generalizing hi with
  | zero => omega
  | succ r ih =>
    have hl : r < qs.length := by
      have := (List.getElem?_eq_some_iff.mp hr).1
      omega
    by_cases hs : qs[r] < s
    · exact ⟨r, Finset.mem_Ico.mpr ⟨by omega, by omega⟩, _, _, List.getElem?_eq_getElem hl, hr, hs, h2⟩
    · rcases Nat.lt_or_ge p r with h | h
      · obtain ⟨j, hj, hb⟩ := ih h _ (List.getElem?_eq_getElem hl) (not_lt.mp hs)
        rw [Finset.mem_Ico] at hj
        exact ⟨j, Finset.mem_Ico.mpr ⟨hj.1, by omega⟩, hb⟩
      · obtain rfl : p = r := by omega
        rw [List.getElem?_eq_getElem hl] at hp
        injection hp with hp
        exact absurd (hp ▸ h1) hs

theorem lands_wider (sr : ℚ) (qs qs' : List ℚ) (hs : qs.Pairwise (· < ·)) (d : Nat) (hlast : qs'.getLast? = qs.getLast?) (i p r : Nat)
    (hpr : p < r) (lo hi : ℚ) (h1 : qs'[i]? = some lo) (h2 : qs'[i + 1]? = some hi) (h3 : qs[p]? = some lo) (h4 : qs[r]? = some hi)
    (y x : Nat) (e : Entry) : Lands sr qs' d e i y x ↔ ∃ j ∈ Finset.Ico p r, Lands sr qs d e j y x := by
  constructor
  · rintro ⟨t, s, g1, g2, g3, ⟨lo', hi', e1, e2, e3, e4⟩, g5, g6⟩
    rw [h1] at e1
    rw [h2] at e2
    injection e1 with e1
    injection e2 with e2
    subst e1 e2
    obtain ⟨j, hj, hb⟩ := bin_between qs p r hpr _ _ h3 h4 s e3 e4
    exact ⟨j, hj, t, s, g1, g2, g3, hb, hlast ▸ g5, g6⟩
  · rintro ⟨j, hj, t, s, g1, g2, g3, ⟨lo', hi', e1, e2, e3, e4⟩, g5, g6⟩
    rw [Finset.mem_Ico] at hj
    exact ⟨t, s, g1, g2, g3, ⟨lo, hi, h1, h2, lt_of_le_of_lt (sorted_get hs hj.1 h3 e1) e3, e4.trans (sorted_get hs hj.2 e2 h4)⟩,
      hlast ▸ g5, g6⟩

theorem sum_mod {ι : Type*} (S : Finset ι) (f : ι → Nat) : (∑ s ∈ S, f s) % 2 ^ 32 = (∑ s ∈ S, f s % 2 ^ 32) % 2 ^ 32 :=
  Finset.sum_nat_mod S (2 ^ 32) f

/-- C127: take two sets of bin edges with the same last edge.  The image of a bin that goes from the lower edge of bin `p` to the
lower edge of bin `r` of the other set is the sum of the images `p` to `r - 1`, pixel by pixel (as far as 32 bits go). -/
theorem c127_times (sr : ℚ) (qs qs' : List ℚ) (hs : qs.Pairwise (· < ·)) (hs' : qs'.Pairwise (· < ·)) (hl : 2 ≤ qs.length)
    (hl' : 2 ≤ qs'.length) (hlast : qs'.getLast? = qs.getLast?) (mode : String) (bs : List EventBatch) (im0 im im0' im' : Stack)
    (h0 : initImages (.fin sr) (qs.map .fin) = .ok im0) (h : updateAll (.fin sr) (qs.map .fin) mode im0 bs = .ok im)
    (h0' : initImages (.fin sr) (qs'.map .fin) = .ok im0') (h' : updateAll (.fin sr) (qs'.map .fin) mode im0' bs = .ok im')
    (i p r : Nat) (hpr : p < r) (lo hi : ℚ) (h1 : qs'[i]? = some lo) (h2 : qs'[i + 1]? = some hi) (h3 : qs[p]? = some lo)
    (h4 : qs[r]? = some hi) (y x : Nat) :
    pixelOr0 im' i y x = (∑ j ∈ Finset.Ico p r, pixelOr0 im j y x) % 2 ^ 32 := by
  unfold pixelOr0
  have hi' : i + 1 < qs'.length := (List.getElem?_eq_some_iff.mp h2).1
  have hr : r < qs.length := (List.getElem?_eq_some_iff.mp h4).1
  rw [c35_counts_partial sr qs' hs' hl' mode bs im0' im' h0' h' i y x]
  by_cases hyx : y < side sr ∧ x < side sr
  · rw [if_pos ⟨hi', hyx⟩, Option.getD_some]
    have e : ∀ j ∈ Finset.Ico p r, (pixel im j y x).getD 0 = counted sr qs (side sr) (entryList mode bs) j y x % 2 ^ 32 := by
      intro j hj
      rw [Finset.mem_Ico] at hj
      rw [c35_counts_partial sr qs hs hl mode bs im0 im h0 h j y x, if_pos ⟨by omega, hyx⟩, Option.getD_some]
    rw [Finset.sum_congr rfl e, ← sum_mod]
    congr 1
    unfold counted
    exact countP_parts _ _ (fun j e => Lands sr qs (side sr) e j y x) _ (fun e _ => lands_wider sr qs qs' hs _ hlast i p r hpr lo hi h1 h2 h3 h4 y x e)
      (fun e _ s t a b => (a.unique (hs.imp le_of_lt) b).1)
  · rw [if_neg (fun c => hyx c.2), Option.getD_none, Finset.sum_eq_zero]
    · rfl
    · intro j _
      rw [c35_counts_partial sr qs hs hl mode bs im0 im h0 h j y x, if_neg (fun c => hyx c.2), Option.getD_none]

/-! ## Hits at an integer super resolution -/

theorem side_nat (m : Nat) (hm : m ≤ 2 ^ 20) : side m = 517 * m := by
  unfold side
  have : rndQ ((517 : ℚ) * m) = ((517 * m : ℤ) : ℚ) := by
    have := rndQ_int (n := 517 * m) (by rw [abs_of_nonneg (by positivity)]; omega)
    push_cast at this ⊢
    exact this
  rw [this, Int.floor_intCast]
  omega

theorem pixel_of_int (m : Nat) (hm : m ≤ 2 ^ 20) (c : ℤ) (h0 : 0 ≤ c) (h1 : c < 517) : PixelOf m (F64.ofInt c) (m * c) := by
  have hb : |(c * m : ℤ)| ≤ 2 ^ 53 := by
    rw [abs_of_nonneg (by positivity)]
    nlinarith
  refine ⟨c, ((c * m : ℤ) : ℚ), F64.ofInt_exact (by rw [abs_of_nonneg h0]; omega), ?_, ?_⟩
  · rw [← F64.ofRat_int hb]
    push_cast
    rfl
  · left
    push_cast
    rw [show (c : ℚ) * m - m * c = 0 by ring]
    norm_num

theorem pixel_of_int_iff (m : Nat) (hm : m ≤ 2 ^ 20) (c : ℤ) (h0 : 0 ≤ c) (h1 : c < 517) (k : ℤ) : PixelOf m (F64.ofInt c) k ↔ k = m * c :=
  ⟨fun h => h.unique (pixel_of_int m hm c h0 h1), fun h => h ▸ pixel_of_int m hm c h0 h1⟩

theorem lands_hit (m : Nat) (hm0 : 0 < m) (hm : m ≤ 2 ^ 20) (qs : List ℚ) (h : Hit) (hx : 0 ≤ h.x ∧ h.x < 517) (hy : 0 ≤ h.y ∧ h.y < 517)
    (e : Entry) (he : hitEntry h = some e) (i y x : Nat) :
    Lands m qs (517 * m) e i y x ↔ (m ∣ y ∧ m ∣ x) ∧ Lands 1 qs 517 e i (y / m) (x / m) := by
  unfold hitEntry at he
  obtain ⟨t, -, rfl⟩ := Option.map_eq_some_iff.mp he
  unfold Lands
  have one : ∀ c k : ℤ, 0 ≤ c → c < 517 → (PixelOf 1 (F64.ofInt c) k ↔ k = c) := by
    intro c k h0 h1
    have := pixel_of_int_iff 1 (by norm_num) c h0 h1 k
    rw [Nat.cast_one, Nat.cast_one, one_mul] at this
    exact this
  simp only [pixel_of_int_iff m hm _ hx.1 hx.2, pixel_of_int_iff m hm _ hy.1 hy.2, one _ _ hx.1 hx.2, one _ _ hy.1 hy.2]
  have arith : ∀ (c : ℤ) (x : Nat), 0 ≤ c → c < 517 → ((x : ℤ) = m * c ↔ m ∣ x ∧ ((x / m : Nat) : ℤ) = c) := by
    intro c x h0 h1
    obtain ⟨c, rfl⟩ := Int.eq_ofNat_of_zero_le h0
    constructor
    · intro e
      have e' : x = m * c := by exact_mod_cast e
      subst e'
      exact ⟨Dvd.intro _ rfl, by rw [Nat.mul_div_cancel_left _ hm0]⟩
    · rintro ⟨⟨q, rfl⟩, e⟩
      rw [Nat.mul_div_cancel_left _ hm0] at e
      have e' : q = c := by exact_mod_cast e
      subst e'
      push_cast
      rfl
  constructor
  · rintro ⟨t', s, g1, g2, g3, g4, g5, g6, g7, g8, g9⟩
    obtain ⟨d1, v1⟩ := (arith _ x hx.1 hx.2).mp g6
    obtain ⟨d2, v2⟩ := (arith _ y hy.1 hy.2).mp g7
    exact ⟨⟨d2, d1⟩, t', s, g1, g2, g3, g4, g5, v1, v2, by omega, by omega⟩
  · rintro ⟨⟨d2, d1⟩, t', s, g1, g2, g3, g4, g5, v1, v2, g8, g9⟩
    refine ⟨t', s, g1, g2, g3, g4, g5, (arith _ x hx.1 hx.2).mpr ⟨d1, v1⟩, (arith _ y hy.1 hy.2).mpr ⟨d2, v2⟩, ?_, ?_⟩
    · exact (Nat.div_lt_iff_lt_mul hm0).mp g8
    · exact (Nat.div_lt_iff_lt_mul hm0).mp g9

theorem entryList_hit (bs : List EventBatch) (e : Entry) (he : e ∈ entryList "hit" bs) :
    ∃ b ∈ bs, ∃ h ∈ b.batch.hits, hitEntry h = some e := by
  unfold entryList at he
  obtain ⟨b, hb, he⟩ := List.mem_flatMap.mp he
  rw [if_pos rfl] at he
  obtain ⟨h, hh, e'⟩ := List.mem_filterMap.mp he
  exact ⟨b, hb, h, hh, e'⟩

/-- C127: for hits a super resolution `m` adds nothing: the pixel `(m x, m y)` has the count of the pixel `(x, y)` without super
resolution, all others are 0. -/
theorem c127_hits (m : Nat) (hm0 : 0 < m) (hm : m ≤ 2 ^ 20) (qs : List ℚ) (hs : qs.Pairwise (· < ·)) (hl : 2 ≤ qs.length)
    (bs : List EventBatch) (hh : ∀ b ∈ bs, ∀ h ∈ b.batch.hits, (0 ≤ h.x ∧ h.x < 517) ∧ (0 ≤ h.y ∧ h.y < 517)) (im0 im im0' im' : Stack)
    (h0 : initImages (.fin 1) (qs.map .fin) = .ok im0) (h : updateAll (.fin 1) (qs.map .fin) "hit" im0 bs = .ok im)
    (h0' : initImages (.fin m) (qs.map .fin) = .ok im0') (h' : updateAll (.fin m) (qs.map .fin) "hit" im0' bs = .ok im')
    (i y x : Nat) : pixelOr0 im' i y x = if m ∣ y ∧ m ∣ x then pixelOr0 im i (y / m) (x / m) else 0 := by
  unfold pixelOr0
  rw [c35_counts_partial m qs hs hl "hit" bs im0' im' h0' h' i y x, c35_counts_partial 1 qs hs hl "hit" bs im0 im h0 h i (y / m) (x / m),
    side_nat m hm, side_one]
  have key : ∀ e ∈ entryList "hit" bs, (Lands m qs (517 * m) e i y x ↔ (m ∣ y ∧ m ∣ x) ∧ Lands 1 qs 517 e i (y / m) (x / m)) := by
    intro e he
    obtain ⟨b, hb, h, hh', e'⟩ := entryList_hit bs e he
    obtain ⟨h1, h2⟩ := hh b hb h hh'
    exact lands_hit m hm0 hm qs h h1 h2 e e' i y x
  have hdiv : ∀ y : Nat, y / m < 517 ↔ y < 517 * m := fun y => Nat.div_lt_iff_lt_mul hm0
  simp only [hdiv]
  have hc : counted m qs (517 * m) (entryList "hit" bs) i y x =
      if m ∣ y ∧ m ∣ x then counted 1 qs 517 (entryList "hit" bs) i (y / m) (x / m) else 0 := by
    unfold counted
    split_ifs with hd
    · apply List.countP_congr
      intro e he
      simp only [decide_eq_true_eq]
      rw [key e he]
      exact ⟨fun g => g.2, fun g => ⟨hd, g⟩⟩
    · rw [List.countP_eq_zero]
      intro e he
      simp only [decide_eq_true_eq]
      rw [key e he]
      exact fun g => hd g.1
  rw [hc]
  split_ifs <;> simp

/-! ## Neutrons at an odd super resolution -/

/-- Doubles keep their distance from a half-integer. -/
theorem gap (a : ℚ) (ha : IsBinary64 a) (k : Nat) (hk : k < 2 ^ 51) (hab : a < k + 1 / 2) : (k + 1 / 2 : ℚ) * 2 ^ (-53 : ℤ) ≤ k + 1 / 2 - a := by
  obtain ⟨n, e, rfl, hn, -, -⟩ := ha
  rw [abs_lt] at hn
  have h53 : (2 : ℚ) ^ (-53 : ℤ) = 1 / 9007199254740992 := by norm_num
  rw [h53]
  rcases le_or_gt (-1) e with he | he
  · have e2 : (n : ℚ) * 2 ^ e = ((n * 2 ^ (e + 1).toNat : ℤ) : ℚ) / 2 := by
      have : (2 : ℚ) ^ e = 2 ^ (e + 1).toNat / 2 := by
        rw [← zpow_natCast, Int.toNat_of_nonneg (by omega), zpow_add₀ (by norm_num)]
        norm_num
      rw [this]
      push_cast
      ring
    rw [e2] at hab ⊢
    generalize n * 2 ^ (e + 1).toNat = z at *
    have hz : z < 2 * k + 1 := by
      have : (z : ℚ) < 2 * k + 1 := by linarith
      exact_mod_cast this
    have hz' : (z : ℚ) ≤ 2 * k := by exact_mod_cast (by omega : z ≤ 2 * k)
    have hk' : (k : ℚ) ≤ 2 ^ 51 := by exact_mod_cast hk.le
    have : (k : ℚ) / 9007199254740992 ≤ 1 / 4 := by
      rw [div_le_iff₀ (by norm_num)]
      norm_num at hk' ⊢
      linarith
    linarith
  · obtain ⟨t, rfl⟩ : ∃ t : Nat, e = -((t : ℤ) + 1) := ⟨(-e - 1).toNat, by omega⟩
    have hP : (0 : ℚ) < 2 ^ (t + 1) := by positivity
    have e2 : (2 : ℚ) ^ (-((t : ℤ) + 1)) = 1 / 2 ^ (t + 1) := by
      rw [zpow_neg, one_div]
      norm_cast
    have eb : (k + 1 / 2 : ℚ) = (((2 * k + 1) * 2 ^ t : ℤ) : ℚ) / 2 ^ (t + 1) := by
      push_cast
      rw [pow_succ]
      field_simp
    rw [e2] at hab ⊢
    rw [eb] at hab ⊢
    generalize ((2 * (k : ℤ) + 1) * 2 ^ t) = z at *
    rw [mul_one_div, div_lt_div_iff_of_pos_right hP] at hab
    have hz : n < z := by exact_mod_cast hab
    have hz' : z ≤ 9007199254740992 * (z - n) := by omega
    have hz'' : (z : ℚ) ≤ 9007199254740992 * (z - n) := by exact_mod_cast hz'
    have e3 : (z : ℚ) / 2 ^ (t + 1) * (1 / 9007199254740992) = z / 9007199254740992 / 2 ^ (t + 1) := by ring
    rw [mul_one_div (n : ℚ), ← sub_div, e3, div_le_div_iff_of_pos_right hP]
    linarith

theorem rounds_bounds {q : ℚ} (hq : 0 ≤ q) {k : ℤ} (h : Rounds q k) : 0 ≤ k ∧ (1 ≤ k → (k : ℚ) - 1 / 2 ≤ q) ∧ q < k + 1 / 2 := by
  have hk : 0 ≤ k := by
    by_contra hc
    have : (k : ℚ) ≤ -1 := by exact_mod_cast (by omega : k ≤ -1)
    rcases h with h | ⟨h, -⟩
    · rw [abs_lt] at h
      linarith
    · rw [abs_of_nonneg (by linarith)] at h
      linarith
  refine ⟨hk, fun _ => ?_, ?_⟩
  · rcases h with h | ⟨h, -⟩
    · rw [abs_lt] at h
      linarith
    · have := abs_le.mp h.le
      linarith
  · rcases h with h | ⟨h, h'⟩
    · rw [abs_lt] at h
      linarith
    · have h1 := abs_le.mp h.le
      rw [abs_of_nonneg hq, abs_of_nonneg (by exact_mod_cast hk)] at h'
      rcases abs_eq (by norm_num) |>.mp h with h | h <;> linarith

theorem rounds_exists (q : ℚ) : ∃ k, Rounds q k := ⟨_, (round_rounds q _).mp rfl⟩

theorem rnd_half (n : ℤ) (hn : |n| ≤ 2 ^ 53) : rndQ ((n : ℚ) / 2) = n / 2 :=
  rndQ_of_grid n (-1) (by rw [zpow_neg_one]; ring) (by norm_num) hn

/-- The pixel at super resolution `m` belongs to the block of the pixel without. -/
theorem in_block (h : Nat) (hm : 2 * h + 1 ≤ 2 ^ 20) (a : ℚ) (h0 : 0 ≤ a) (ha : IsBinary64 a) (k j : ℤ) (hk : Rounds a k) (hk1 : k < 2 ^ 30)
    (hj : Rounds (rndQ (a * (2 * h + 1 : Nat))) j) : (2 * h + 1) * k ≤ j + h ∧ j ≤ (2 * h + 1) * k + h := by
  obtain ⟨k0, k1, k2⟩ := rounds_bounds h0 hk
  have hmq : (0 : ℚ) < (2 * h + 1 : Nat) := by positivity
  have hv : 0 ≤ rndQ (a * (2 * h + 1 : Nat)) := rndQ_nonneg (by positivity)
  obtain ⟨j0, j1, j2⟩ := rounds_bounds hv hj
  obtain ⟨k, rfl⟩ := Int.eq_ofNat_of_zero_le k0
  rw [Int.cast_natCast] at k1 k2
  have hbig : ∀ z : ℤ, 0 ≤ z → z ≤ 2 * ((2 * h + 1) * (k + 1)) → |z| ≤ 2 ^ 53 := by
    intro z z0 z1
    rw [abs_of_nonneg z0]
    have : (2 * (h : ℤ) + 1) * (k + 1) ≤ 2 ^ 20 * 2 ^ 30 := mul_le_mul (by exact_mod_cast hm) (by omega) (by omega) (by norm_num)
    have h2 : z ≤ 2 * (2 ^ 20 * 2 ^ 30) := le_trans z1 (by linarith)
    exact le_trans h2 (by norm_num)
  constructor
  · rcases Nat.eq_zero_or_pos k with rfl | hpos
    · push_cast
      omega
    · have g1 := k1 (by omega)
      have g2 : (((2 * h + 1) * (2 * k - 1) : ℤ) : ℚ) / 2 ≤ a * (2 * h + 1 : Nat) := by
        push_cast
        have := mul_le_mul_of_nonneg_right g1 (by positivity : (0 : ℚ) ≤ 2 * h + 1)
        linarith
      have g3 := rndQ_mono g2
      rw [rnd_half _ (hbig _ (mul_nonneg (by omega) (by omega)) (by nlinarith))] at g3
      have g4 : ((2 * h + 1) * (2 * k - 1) : ℤ) < 2 * j + 1 := by
        have : (((2 * h + 1) * (2 * k - 1) : ℤ) : ℚ) < 2 * j + 1 := by linarith
        exact_mod_cast this
      have e : ((2 * h + 1) * (2 * k - 1) : ℤ) = 2 * ((2 * h + 1) * k) - (2 * h + 1) := by ring
      rw [e] at g4
      omega
  · have hB : rndQ (a * (2 * h + 1 : Nat)) < (((2 * h + 1) * (2 * k + 1) : ℤ) : ℚ) / 2 := by
      by_cases hs : a * (2 * h + 1 : Nat) ≤ 1 / 4
      · have g1 := rndQ_mono hs
        have g2 : rndQ (1 / 4) = 1 / 4 := rndQ_of_grid 1 (-2) (by norm_num) (by norm_num) (by norm_num)
        rw [g2] at g1
        have g3 : (1 : ℚ) ≤ (((2 * h + 1) * (2 * k + 1) : ℤ) : ℚ) := by
          have : (1 : ℤ) ≤ (2 * h + 1) * (2 * k + 1) := by nlinarith
          exact_mod_cast this
        linarith
      · have hpos : 0 < a * (2 * h + 1 : Nat) := by linarith
        have g1 := abs_rndQ_sub_le (q := a * (2 * h + 1 : Nat)) (by
          rw [abs_of_pos hpos]
          have : (2 : ℚ) ^ (-1022 : ℤ) ≤ 2 ^ (-2 : ℤ) := zpow_le_zpow_right₀ (by norm_num) (by norm_num)
          refine this.trans ?_
          rw [show (2 : ℚ) ^ (-2 : ℤ) = 1 / 4 by norm_num]
          exact (not_le.mp hs).le)
        rw [abs_of_pos hpos] at g1
        have g2 := (abs_le.mp g1).2
        have g3 := gap a ha k (by omega) k2
        have h53 : (2 : ℚ) ^ (-53 : ℤ) = 1 / 9007199254740992 := by norm_num
        rw [h53] at g2 g3
        have g4 : a + a * (1 / 9007199254740992) < k + 1 / 2 := by linarith
        have g5 := mul_lt_mul_of_pos_right g4 hmq
        push_cast at g2 g5 ⊢
        linarith
    have g4 : 2 * j - 1 < ((2 * h + 1) * (2 * k + 1) : ℤ) := by
      rcases lt_or_ge j 1 with hj1 | hj1
      · have : (1 : ℤ) ≤ (2 * h + 1) * (2 * k + 1) := by nlinarith
        omega
      · have g5 := j1 hj1
        have : 2 * (j : ℚ) - 1 < (((2 * h + 1) * (2 * k + 1) : ℤ) : ℚ) := by linarith
        exact_mod_cast this
    have e : ((2 * h + 1) * (2 * k + 1) : ℤ) = 2 * ((2 * h + 1) * k) + (2 * h + 1) := by ring
    rw [e] at g4
    omega

theorem ofRat_value {q d : ℚ} (h : F64.ofRat q = .fin d) : d = rndQ q := by
  unfold F64.ofRat at h
  simp only at h
  split_ifs at h with h1
  rw [F64.fin.injEq] at h
  exact h.symm

theorem mem_block (h k j : Nat) : j ∈ block (2 * h + 1) k ↔ (2 * h + 1) * k ≤ j + h ∧ j ≤ (2 * h + 1) * k + h := by
  unfold block
  rw [Finset.mem_Icc, show (2 * h + 1 - 1) / 2 = h by omega]
  omega

theorem pixel_block (h : Nat) (hm : 2 * h + 1 ≤ 2 ^ 20) (a : ℚ) (h0 : 0 ≤ a) (ha : IsBinary64 a) (k : Nat) (hk : k < 517) :
    PixelOf 1 (.fin a) k ↔ ∃ j ∈ block (2 * h + 1) k, PixelOf (2 * h + 1 : Nat) (.fin a) j ∧ j < 517 * (2 * h + 1) := by
  have hmq : (0 : ℚ) < (2 * h + 1 : Nat) := by positivity
  have hm' : ((2 * h + 1 : Nat) : ℚ) ≤ 2 ^ 20 := by exact_mod_cast hm
  constructor
  · rintro ⟨a', v, e1, e2, e3⟩
    rw [F64.fin.injEq] at e1
    subst e1
    rw [mul_one, (c120_exact a).mpr ha, F64.fin.injEq] at e2
    subst e2
    obtain ⟨j, hj⟩ := rounds_exists (rndQ (a * (2 * h + 1 : Nat)))
    obtain ⟨b1, b2⟩ := in_block h hm a h0 ha k j e3 (by omega) hj
    obtain ⟨j, rfl⟩ := Int.eq_ofNat_of_zero_le (rounds_bounds (rndQ_nonneg (by positivity)) hj).1
    have b1' : (2 * h + 1) * k ≤ j + h := by exact_mod_cast b1
    have b2' : j ≤ (2 * h + 1) * k + h := by exact_mod_cast b2
    refine ⟨j, (mem_block h k j).mpr ⟨b1', b2'⟩, ⟨a, _, rfl, F64.ofRat_fin ?_, hj⟩, ?_⟩
    · have hk' := (rounds_bounds h0 e3).2.2
      have : (k : ℚ) ≤ 516 := by exact_mod_cast (by omega : k ≤ 516)
      rw [abs_of_nonneg (by positivity)]
      have h1 : a * (2 * h + 1 : Nat) ≤ 2 ^ 10 * 2 ^ 20 := by
        refine mul_le_mul ?_ hm' hmq.le (by norm_num)
        rw [Int.cast_natCast] at hk'
        norm_num
        linarith
      refine h1.trans ?_
      rw [← pow_add, ← zpow_natCast]
      exact zpow_le_zpow_right₀ (by norm_num) (by norm_num)
    · have : (2 * h + 1) * k ≤ (2 * h + 1) * 516 := Nat.mul_le_mul_left _ (by omega)
      omega
  · rintro ⟨j, hj, ⟨a', v, e1, e2, e3⟩, hl⟩
    rw [F64.fin.injEq] at e1
    subst e1
    obtain rfl := ofRat_value e2
    have hv := rndQ_nonneg (q := a * (2 * h + 1 : Nat)) (by positivity)
    have ha5 : a < 517 := by
      by_contra hc
      have g1 : (((517 * (2 * h + 1) : ℕ) : ℤ) : ℚ) ≤ a * (2 * h + 1 : Nat) := by
        rw [Int.cast_natCast, Nat.cast_mul]
        exact mul_le_mul_of_nonneg_right (not_lt.mp hc) hmq.le
      have g2 := rndQ_mono g1
      rw [rndQ_int (by rw [abs_of_nonneg (by positivity)]; push_cast; omega)] at g2
      have g3 := (rounds_bounds hv e3).2.2
      have g4 : (j : ℚ) + 1 ≤ (((517 * (2 * h + 1) : ℕ) : ℤ) : ℚ) := by
        rw [Int.cast_natCast]
        exact_mod_cast hl
      rw [Int.cast_natCast (R := ℚ) j] at g3
      linarith
    obtain ⟨k', hk'⟩ := rounds_exists a
    have hb := rounds_bounds h0 hk'
    obtain ⟨k', rfl⟩ := Int.eq_ofNat_of_zero_le hb.1
    have hk5 : k' < 518 := by
      by_contra hc
      have g1 := hb.2.1 (by omega)
      have : (518 : ℚ) ≤ ((k' : ℤ) : ℚ) := by exact_mod_cast (by omega : 518 ≤ k')
      linarith
    obtain ⟨b1, b2⟩ := in_block h hm a h0 ha k' j hk' (by omega) e3
    have b1' : (2 * h + 1) * k' ≤ j + h := by exact_mod_cast b1
    have b2' : j ≤ (2 * h + 1) * k' + h := by exact_mod_cast b2
    obtain ⟨c1, c2⟩ := (mem_block h k j).mp hj
    have d1 : (j + h) / (2 * h + 1) = k := Nat.div_eq_of_lt_le (by rw [Nat.mul_comm]; exact c1) (by rw [Nat.add_mul, Nat.mul_comm k]; omega)
    have d2 : (j + h) / (2 * h + 1) = k' := Nat.div_eq_of_lt_le (by rw [Nat.mul_comm]; exact b1') (by rw [Nat.add_mul, Nat.mul_comm k']; omega)
    obtain rfl : k' = k := by omega
    exact ⟨a, a, rfl, by rw [mul_one]; exact (c120_exact a).mpr ha, hk'⟩

theorem lands_odd (h : Nat) (hm : 2 * h + 1 ≤ 2 ^ 20) (qs : List ℚ) (e : Entry) (he : Proper e) (i y x : Nat) (hy : y < 517) (hx : x < 517) :
    Lands 1 qs 517 e i y x ↔
      ∃ s ∈ block (2 * h + 1) y ×ˢ block (2 * h + 1) x, Lands (2 * h + 1 : Nat) qs (517 * (2 * h + 1)) e i s.1 s.2 := by
  obtain ⟨⟨a, ha, a0, a1⟩, b, hb, b0, b1⟩ := he
  unfold Lands
  rw [ha, hb]
  constructor
  · rintro ⟨t, s, g1, g2, g3, g4, g5, g6, g7, g8, g9⟩
    obtain ⟨jx, m1, p1, l1⟩ := (pixel_block h hm a a0 a1 x hx).mp g6
    obtain ⟨jy, m2, p2, l2⟩ := (pixel_block h hm b b0 b1 y hy).mp g7
    exact ⟨(jy, jx), Finset.mem_product.mpr ⟨m2, m1⟩, t, s, g1, g2, g3, g4, g5, p1, p2, l1, l2⟩
  · rintro ⟨⟨jy, jx⟩, hm', t, s, g1, g2, g3, g4, g5, g6, g7, g8, g9⟩
    obtain ⟨m2, m1⟩ := Finset.mem_product.mp hm'
    exact ⟨t, s, g1, g2, g3, g4, g5, (pixel_block h hm a a0 a1 x hx).mpr ⟨jx, m1, g6, g8⟩, (pixel_block h hm b b0 b1 y hy).mpr ⟨jy, m2, g7, g9⟩,
      hx, hy⟩

theorem counted_odd (h : Nat) (hm : 2 * h + 1 ≤ 2 ^ 20) (qs : List ℚ) (hs : qs.Pairwise (· < ·)) (l : List Entry) (hp : ∀ e ∈ l, Proper e)
    (i y x : Nat) (hy : y < 517) (hx : x < 517) :
    counted 1 qs 517 l i y x = ∑ s ∈ block (2 * h + 1) y ×ˢ block (2 * h + 1) x, counted (2 * h + 1 : Nat) qs (517 * (2 * h + 1)) l i s.1 s.2 := by
  have key := countP_parts (block (2 * h + 1) y ×ˢ block (2 * h + 1) x) (fun e => Lands 1 qs 517 e i y x)
    (fun s e => Lands (2 * h + 1 : Nat) qs (517 * (2 * h + 1)) e i s.1 s.2) l
    (fun e he => lands_odd h hm qs e (hp e he) i y x hy hx)
    (fun e _ s t a b => by
      obtain ⟨-, u1, u2⟩ := a.unique (hs.imp le_of_lt) b
      exact Prod.ext u1 u2)
  unfold counted
  convert key

/-- C127: for an odd super resolution `m`, the image without super resolution is the sum over the blocks of `m` by `m` pixels, for
all entries (hits or neutrons) whose coordinates are doubles and not negative. -/
theorem c127_odd (h : Nat) (hm : 2 * h + 1 ≤ 2 ^ 20) (qs : List ℚ) (hs : qs.Pairwise (· < ·)) (hl : 2 ≤ qs.length) (mode : String)
    (bs : List EventBatch) (hp : ∀ e ∈ entryList mode bs, Proper e) (im0 im im0' im' : Stack)
    (h0 : initImages (.fin 1) (qs.map .fin) = .ok im0) (h1 : updateAll (.fin 1) (qs.map .fin) mode im0 bs = .ok im)
    (h0' : initImages (.fin (2 * h + 1 : Nat)) (qs.map .fin) = .ok im0')
    (h1' : updateAll (.fin (2 * h + 1 : Nat)) (qs.map .fin) mode im0' bs = .ok im') (i y x : Nat) (hy : y < 517) (hx : x < 517) :
    pixelOr0 im i y x = (∑ s ∈ block (2 * h + 1) y ×ˢ block (2 * h + 1) x, pixelOr0 im' i s.1 s.2) % 2 ^ 32 := by
  unfold pixelOr0
  rw [c35_counts_partial 1 qs hs hl mode bs im0 im h0 h1 i y x, side_one]
  by_cases hi : i + 1 < qs.length
  · rw [if_pos ⟨hi, hy, hx⟩, Option.getD_some]
    have hlt : ∀ k j, k < 517 → j ∈ block (2 * h + 1) k → j < 517 * (2 * h + 1) := by
      intro k j hk hj
      have := ((mem_block h k j).mp hj).2
      have : (2 * h + 1) * k ≤ (2 * h + 1) * 516 := Nat.mul_le_mul_left _ (by omega)
      omega
    have e : ∀ s ∈ block (2 * h + 1) y ×ˢ block (2 * h + 1) x, (pixel im' i s.1 s.2).getD 0 =
        counted (2 * h + 1 : Nat) qs (517 * (2 * h + 1)) (entryList mode bs) i s.1 s.2 % 2 ^ 32 := by
      intro s hs'
      obtain ⟨m1, m2⟩ := Finset.mem_product.mp hs'
      rw [c35_counts_partial _ qs hs hl mode bs im0' im' h0' h1' i s.1 s.2, side_nat _ hm, if_pos ⟨hi, hlt y s.1 hy m1, hlt x s.2 hx m2⟩,
        Option.getD_some]
    have hc := counted_odd h hm qs hs (entryList mode bs) hp i y x hy hx
    rw [hc, Finset.sum_congr rfl e]
    exact sum_mod _ _
  · rw [if_neg (fun c => hi c.1), Option.getD_none, Finset.sum_eq_zero]
    · rfl
    · intro s _
      rw [c35_counts_partial _ qs hs hl mode bs im0' im' h0' h1' i s.1 s.2, if_neg (fun c => hi c.1), Option.getD_none]

/-! ## Even super resolutions -/

/-- A batch with one neutron at `(a, 0)`, half a second after the trigger. -/
def oneNeutron (a : ℚ) : List EventBatch := [⟨⟨0, 0, 0, [], ⟨0, 0, 0⟩⟩, [⟨.fin a, .fin 0, .fin 20000000, .fin 1, 1⟩]⟩]

theorem half_exact : F64.ofRat (500000000 / 1000000000) = .fin (1 / 2) := by
  have : (500000000 / 1000000000 : ℚ) = 1 / 2 := by norm_num
  rw [this]
  exact (c120_exact _).mpr ⟨1, -1, by norm_num, by norm_num, by norm_num, by norm_num⟩

theorem oneNeutron_entries (a : ℚ) : entryList "neutron" (oneNeutron a) = [⟨.fin a, .fin 0, .fin 500000000⟩] := by
  have e : F64.mul (.fin 20000000) (.fin 25) = .fin 500000000 := by
    simp only [F64.mul]
    have := F64.ofRat_int (n := 500000000) (by norm_num)
    push_cast at this
    rw [← this]
    norm_num
  unfold entryList oneNeutron
  rw [List.flatMap_singleton, if_neg (by decide), List.map_singleton, e]

theorem oneNeutron_lands (sr a : ℚ) (d k : Nat) (h : PixelOf sr (.fin a) k) (h0 : PixelOf sr (.fin 0) 0) (hk : k < d) (i y x : Nat) :
    Lands sr [0, 1] d ⟨.fin a, .fin 0, .fin 500000000⟩ i y x ↔ i = 0 ∧ y = 0 ∧ x = k := by
  have hin : InBin [0, 1] (1 / 2) 0 := ⟨0, 1, rfl, rfl, by norm_num, by norm_num⟩
  constructor
  · rintro ⟨t, s, g1, -, g3, g4, -, g6, g7, -, -⟩
    rw [F64.fin.injEq] at g1
    subst g1
    rw [half_exact, F64.fin.injEq] at g3
    subst g3
    refine ⟨g4.unique (by simp) hin, ?_, ?_⟩
    · have := g7.unique h0
      omega
    · have := g6.unique h
      omega
  · rintro ⟨rfl, rfl, rfl⟩
    exact ⟨_, _, rfl, by norm_num, half_exact, hin, by simp; norm_num, h, h0, hk, by omega⟩

theorem oneNeutron_images (sr a : ℚ) (d k : Nat) (hd : dimOf (.fin sr) = .ok (d : Int)) (h : PixelOf sr (.fin a) k) (h0 : PixelOf sr (.fin 0) 0)
    (hk : k < d) (hx : toPixel (.fin sr) (.fin a) = .ok k) (hy : toPixel (.fin sr) (.fin 0) = .ok 0) :
    ∃ im0 im, initImages (.fin sr) (([0, 1] : List ℚ).map .fin) = .ok im0 ∧
      updateAll (.fin sr) (([0, 1] : List ℚ).map .fin) "neutron" im0 (oneNeutron a) = .ok im ∧
      ∀ i y x, pixelOr0 im i y x = if i = 0 ∧ y = 0 ∧ x = k then 1 else 0 := by
  obtain ⟨im0, hi⟩ : ∃ im0, initImages (.fin sr) (([0, 1] : List ℚ).map .fin) = .ok im0 := by
    unfold initImages
    rw [hd]
    simp only [bind, Res.bind]
    rw [if_neg (by simp)]
    unfold zeroStack
    rw [if_neg (by simp), if_neg (by omega)]
    exact ⟨_, rfl⟩
  obtain ⟨d', hd', hz⟩ := initImages_ok _ _ (by simp) im0 hi
  obtain rfl : d = d' := by
    rw [hd] at hd'
    rw [Res.ok.injEq] at hd'
    omega
  have hside : d = side sr := by have := dimOf_side sr d hd (by omega); omega
  obtain ⟨im, hu⟩ : ∃ im, updateAll (.fin sr) (([0, 1] : List ℚ).map .fin) "neutron" im0 (oneNeutron a) = .ok im := by
    rcases updateAll_cases (zeroStack_shaped _ _ _ hz) (by rw [List.length_map]; decide) (.fin sr)
      (([0, 1] : List ℚ).map .fin) (by simp) hd "neutron" (oneNeutron a) with g | ⟨-, g⟩ | ⟨-, e, he, -, -, g⟩
    · exact g
    · exact absurd (fun c => absurd c (by decide)) g
    · rw [oneNeutron_entries, List.mem_singleton] at he
      subst he
      simp only [hx, hy, reduceCtorEq, or_self] at g
  refine ⟨im0, im, hi, hu, ?_⟩
  intro i y x
  unfold pixelOr0
  rw [c35_counts_partial sr [0, 1] (by simp) (by simp) "neutron" _ im0 im hi hu i y x, ← hside, oneNeutron_entries]
  unfold counted
  rw [List.countP_singleton]
  simp only [oneNeutron_lands sr a d k h h0 hk, decide_eq_true_eq]
  by_cases hc : i = 0 ∧ y = 0 ∧ x = k
  · obtain ⟨rfl, rfl, rfl⟩ := hc
    rw [if_pos ⟨by simp, by omega, hk⟩]
    simp
  · rw [if_neg hc]
    split_ifs <;> rfl

theorem toPixel_pixel (sr raw : F64) (q : ℚ) (h : sr = .fin q) (hr : raw.isFinite = true) (k : Nat) (hk : toPixel sr raw = .ok (k : Int)) :
    PixelOf q raw k := by
  subst h
  exact toPixel_ok q raw hr k hk

/-- C127: with super resolution 2 the coarser image cannot be told from the finer one: two neutrons that give the same images with super
resolution 2 give different ones without. -/
theorem c127_false_even : ∃ bs bs' : List EventBatch,
    (∀ e ∈ entryList "neutron" bs ++ entryList "neutron" bs', Proper e) ∧
    (∃ im0 im im', initImages (.fin 2) (([0, 1] : List ℚ).map .fin) = .ok im0 ∧
      updateAll (.fin 2) (([0, 1] : List ℚ).map .fin) "neutron" im0 bs = .ok im ∧
      updateAll (.fin 2) (([0, 1] : List ℚ).map .fin) "neutron" im0 bs' = .ok im' ∧
      (∀ i y x, pixelOr0 im i y x = pixelOr0 im' i y x) ∧ pixelOr0 im 0 0 1 = 1) ∧
    ∃ im0 im im', initImages (.fin 1) (([0, 1] : List ℚ).map .fin) = .ok im0 ∧
      updateAll (.fin 1) (([0, 1] : List ℚ).map .fin) "neutron" im0 bs = .ok im ∧
      updateAll (.fin 1) (([0, 1] : List ℚ).map .fin) "neutron" im0 bs' = .ok im' ∧
      pixelOr0 im 0 0 0 = 1 ∧ pixelOr0 im' 0 0 0 = 0 := by
  have t1 : toPixel (.fin 2) (.fin (3 / 8)) = .ok ((1 : Nat) : Int) := by decide +kernel
  have t2 : toPixel (.fin 2) (.fin (5 / 8)) = .ok ((1 : Nat) : Int) := by decide +kernel
  have t3 : toPixel (.fin 2) (.fin 0) = .ok ((0 : Nat) : Int) := by decide +kernel
  have t4 : toPixel (.fin 1) (.fin (3 / 8)) = .ok ((0 : Nat) : Int) := by decide +kernel
  have t5 : toPixel (.fin 1) (.fin (5 / 8)) = .ok ((1 : Nat) : Int) := by decide +kernel
  have t6 : toPixel (.fin 1) (.fin 0) = .ok ((0 : Nat) : Int) := by decide +kernel
  have d1 : dimOf (.fin 1) = .ok ((517 : Nat) : Int) := by decide +kernel
  have d2 : dimOf (.fin 2) = .ok ((1034 : Nat) : Int) := by decide +kernel
  have P := fun (q : ℚ) (a : ℚ) (k : Nat) (h : toPixel (.fin q) (.fin a) = .ok (k : Int)) => toPixel_pixel (.fin q) (.fin a) q rfl rfl k h
  obtain ⟨i1, m1, a1, b1, c1⟩ := oneNeutron_images 2 (3 / 8) 1034 1 d2 (P _ _ _ t1) (P _ _ _ t3) (by norm_num) t1 t3
  obtain ⟨i2, m2, a2, b2, c2⟩ := oneNeutron_images 2 (5 / 8) 1034 1 d2 (P _ _ _ t2) (P _ _ _ t3) (by norm_num) t2 t3
  obtain ⟨i3, m3, a3, b3, c3⟩ := oneNeutron_images 1 (3 / 8) 517 0 d1 (P _ _ _ t4) (P _ _ _ t6) (by norm_num) t4 t6
  obtain ⟨i4, m4, a4, b4, c4⟩ := oneNeutron_images 1 (5 / 8) 517 1 d1 (P _ _ _ t5) (P _ _ _ t6) (by norm_num) t5 t6
  rw [a1, Res.ok.injEq] at a2
  rw [a3, Res.ok.injEq] at a4
  subst a2 a4
  refine ⟨oneNeutron (3 / 8), oneNeutron (5 / 8), ?_, ⟨i1, m1, m2, a1, b1, b2, fun i y x => by rw [c1, c2], by rw [c1]; rfl⟩,
    ⟨i3, m3, m4, a3, b3, b4, by rw [c3]; rfl, by rw [c4]; rfl⟩⟩
  intro e he
  have z : IsBinary64 0 := ⟨0, 0, by norm_num, by norm_num, by norm_num, by norm_num⟩
  rw [oneNeutron_entries, oneNeutron_entries, List.mem_append, List.mem_singleton, List.mem_singleton] at he
  rcases he with rfl | rfl
  · exact ⟨⟨_, rfl, by norm_num, ⟨3, -3, by norm_num, by norm_num, by norm_num, by norm_num⟩⟩, _, rfl, le_refl _, z⟩
  · exact ⟨⟨_, rfl, by norm_num, ⟨5, -3, by norm_num, by norm_num, by norm_num, by norm_num⟩⟩, _, rfl, le_refl _, z⟩

/-! ## The assumptions can be met -/

/-- `c127_odd`: the neutron at `3/8` with super resolution 3 is at pixel 1, which belongs to pixel 0 without. -/
example : (∀ e ∈ entryList "neutron" (oneNeutron (3 / 8)), Proper e) ∧
    (∃ im0 im, initImages (.fin ((2 * 1 + 1 : Nat) : ℚ)) (([0, 1] : List ℚ).map .fin) = .ok im0 ∧
      updateAll (.fin ((2 * 1 + 1 : Nat) : ℚ)) (([0, 1] : List ℚ).map .fin) "neutron" im0 (oneNeutron (3 / 8)) = .ok im ∧ pixelOr0 im 0 0 1 = 1) ∧
    (∃ im0 im, initImages (.fin 1) (([0, 1] : List ℚ).map .fin) = .ok im0 ∧
      updateAll (.fin 1) (([0, 1] : List ℚ).map .fin) "neutron" im0 (oneNeutron (3 / 8)) = .ok im ∧ pixelOr0 im 0 0 0 = 1) ∧
    block 3 0 = {0, 1} := by
  have e3 : ((2 * 1 + 1 : Nat) : ℚ) = 3 := by norm_num
  rw [e3]
  have t1 : toPixel (.fin 3) (.fin (3 / 8)) = .ok ((1 : Nat) : Int) := by decide +kernel
  have t3 : toPixel (.fin 3) (.fin 0) = .ok ((0 : Nat) : Int) := by decide +kernel
  have t4 : toPixel (.fin 1) (.fin (3 / 8)) = .ok ((0 : Nat) : Int) := by decide +kernel
  have t6 : toPixel (.fin 1) (.fin 0) = .ok ((0 : Nat) : Int) := by decide +kernel
  have d1 : dimOf (.fin 1) = .ok ((517 : Nat) : Int) := by decide +kernel
  have d3 : dimOf (.fin 3) = .ok ((1551 : Nat) : Int) := by decide +kernel
  have P := fun (q : ℚ) (a : ℚ) (k : Nat) (h : toPixel (.fin q) (.fin a) = .ok (k : Int)) => toPixel_pixel (.fin q) (.fin a) q rfl rfl k h
  obtain ⟨i1, m1, a1, b1, c1⟩ := oneNeutron_images 3 (3 / 8) 1551 1 d3 (P _ _ _ t1) (P _ _ _ t3) (by norm_num) t1 t3
  obtain ⟨i3, m3, a3, b3, c3⟩ := oneNeutron_images 1 (3 / 8) 517 0 d1 (P _ _ _ t4) (P _ _ _ t6) (by norm_num) t4 t6
  refine ⟨?_, ⟨i1, m1, a1, b1, by rw [c1]; rfl⟩, ⟨i3, m3, a3, b3, by rw [c3]; rfl⟩, by decide⟩
  intro e he
  rw [oneNeutron_entries, List.mem_singleton] at he
  subst he
  exact ⟨⟨_, rfl, by norm_num, ⟨3, -3, by norm_num, by norm_num, by norm_num, by norm_num⟩⟩, _, rfl, le_refl _,
    ⟨0, 0, by norm_num, by norm_num, by norm_num, by norm_num⟩⟩

/-- `c127_times`: edges 0, 1, 3, 4 and the coarser 0, 3, 4: the first bin is the sum of two. -/
example : ([0, 1, 3, 4] : List ℚ).Pairwise (· < ·) ∧ ([0, 3, 4] : List ℚ).Pairwise (· < ·) ∧
    ([0, 3, 4] : List ℚ).getLast? = ([0, 1, 3, 4] : List ℚ).getLast? ∧ ([0, 3, 4] : List ℚ)[0]? = some 0 ∧ ([0, 3, 4] : List ℚ)[0 + 1]? = some 3 ∧
    ([0, 1, 3, 4] : List ℚ)[0]? = some 0 ∧ ([0, 1, 3, 4] : List ℚ)[2]? = some 3 ∧ Finset.Ico 0 2 = {0, 1} := by
  refine ⟨by simp; norm_num, by simp; norm_num, rfl, rfl, rfl, rfl, rfl, by decide⟩

/-- `c127_hits`: a hit at `(1, 2)` and super resolution 3. -/
example : (∃ im0 im, initImages (.fin 1) (([0, 1] : List ℚ).map .fin) = .ok im0 ∧
      updateAll (.fin 1) (([0, 1] : List ℚ).map .fin) "hit" im0 [⟨⟨0, 0, 0, [⟨1, 2, 3, 4, 5, some 6, 7⟩], ⟨0, 0, 0⟩⟩, []⟩] = .ok im) ∧
    ∃ im0 im, initImages (.fin ((3 : Nat) : ℚ)) (([0, 1] : List ℚ).map .fin) = .ok im0 ∧
      updateAll (.fin ((3 : Nat) : ℚ)) (([0, 1] : List ℚ).map .fin) "hit" im0 [⟨⟨0, 0, 0, [⟨1, 2, 3, 4, 5, some 6, 7⟩], ⟨0, 0, 0⟩⟩, []⟩] = .ok im := by
  have hh : ∀ b ∈ ([⟨⟨0, 0, 0, [⟨1, 2, 3, 4, 5, some 6, 7⟩], ⟨0, 0, 0⟩⟩, []⟩] : List EventBatch), ∀ h ∈ b.batch.hits,
      (0 ≤ h.x ∧ h.x < 1024) ∧ (0 ≤ h.y ∧ h.y < 1024) ∧ h.tof ≠ none := by
    intro b hb h hh
    rw [List.mem_singleton] at hb; subst hb
    rw [List.mem_singleton] at hh; subst hh
    decide
  have d3 : dimOf (.fin ((3 : Nat) : ℚ)) = .ok ((1551 : Nat) : Int) := by decide +kernel
  obtain ⟨i1, h1⟩ := initImages_one (([0, 1] : List ℚ).map .fin) (by simp)
  obtain ⟨i3, h3⟩ : ∃ im0, initImages (.fin ((3 : Nat) : ℚ)) (([0, 1] : List ℚ).map .fin) = .ok im0 := by
    unfold initImages
    rw [d3]
    simp only [bind, Res.bind]
    rw [if_neg (by simp)]
    unfold zeroStack
    rw [if_neg (by simp), if_neg (by omega)]
    exact ⟨_, rfl⟩
  obtain ⟨m1, g1⟩ := c36_hits_defined 1 (by norm_num) (by norm_num) (([0, 1] : List ℚ).map .fin) (by simp) _ i1 h1 hh
  obtain ⟨m3, g3⟩ := c36_hits_defined ((3 : Nat) : ℚ) (by norm_num) (by norm_num) (([0, 1] : List ℚ).map .fin) (by simp) _ i3 h3 hh
  exact ⟨⟨i1, m1, h1, g1⟩, i3, m3, h3, g3⟩

end Verif.Props
