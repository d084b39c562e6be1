import Verif.Spec.Image
import Verif.Lemmas.F64

/-! Lemmas on binning and images. -/

namespace Verif

open Spec

instance : LawfulMonad Res := LawfulMonad.mk'
  (id_map := by intro α x; cases x <;> rfl)
  (pure_bind := by intros; rfl)
  (bind_assoc := by intro α β γ x f g; cases x <;> rfl)

/-! ### `std::lower_bound` -/

theorem lowerBoundGo_le (edges : List F64) (v : F64) (fuel first len : Nat) (h : first + len ≤ edges.length)
    (hf : len ≤ fuel) : ∃ k, lowerBoundGo edges v fuel first len = .ok k ∧ first ≤ k ∧ k ≤ first + len := by
  induction fuel generalizing first len with
  | zero => exact ⟨first, rfl, Nat.le_refl _, by omega⟩
  | succ fuel ih =>
    rw [lowerBoundGo]
    by_cases h0 : len = 0
    · rw [if_pos h0]; exact ⟨first, rfl, Nat.le_refl _, by omega⟩
    · rw [if_neg h0, List.getElem?_eq_getElem (by omega)]
      simp only
      split
      · obtain ⟨k, h1, h2, h3⟩ := ih (first + len / 2 + 1) (len - len / 2 - 1) (by omega) (by omega)
        exact ⟨k, h1, by omega, by omega⟩
      · obtain ⟨k, h1, h2, h3⟩ := ih first (len / 2) (by omega) (by omega)
        exact ⟨k, h1, by omega, by omega⟩

theorem lowerBound_le (edges : List F64) (v : F64) : ∃ k, lowerBound edges v = .ok k ∧ k ≤ edges.length := by
  obtain ⟨k, h1, -, h3⟩ := lowerBoundGo_le edges v edges.length 0 edges.length (by omega) (Nat.le_refl _)
  exact ⟨k, h1, by omega⟩

theorem lowerBoundGo_sorted (qs : List ℚ) (hs : qs.Pairwise (· ≤ ·)) (t : ℚ) (fuel first len k : Nat)
    (h : first + len ≤ qs.length) (hf : len ≤ fuel)
    (hlo : ∀ j q, j < first → qs[j]? = some q → q < t)
    (hhi : ∀ j q, first + len ≤ j → qs[j]? = some q → t ≤ q)
    (hk : lowerBoundGo (qs.map F64.fin) (.fin t) fuel first len = .ok k) :
    (∀ j q, j < k → qs[j]? = some q → q < t) ∧ (∀ j q, k ≤ j → qs[j]? = some q → t ≤ q) := by
  induction fuel generalizing first len with
  | zero =>
    rw [lowerBoundGo] at hk
    injection hk with hk
    subst hk
    exact ⟨hlo, fun j q hj => hhi j q (by omega)⟩
  | succ fuel ih =>
    rw [lowerBoundGo] at hk
    by_cases h0 : len = 0
    · rw [if_pos h0] at hk
      injection hk with hk
      subst hk
      exact ⟨hlo, fun j q hj => hhi j q (by omega)⟩
    · have hlt : first + len / 2 < qs.length := by omega
      rw [if_neg h0, List.getElem?_map, List.getElem?_eq_getElem hlt] at hk
      simp only [Option.map_some, F64.lt, decide_eq_true_eq] at hk
      split_ifs at hk with hm
      · refine ih (first + len / 2 + 1) (len - len / 2 - 1) (by omega) (by omega) ?_ ?_ hk
        · intro j q hj hq
          obtain ⟨hj', rfl⟩ := List.getElem?_eq_some_iff.mp hq
          refine lt_of_le_of_lt ?_ hm
          rcases Nat.lt_or_ge j (first + len / 2) with hjm | hjm
          · exact List.pairwise_iff_getElem.mp hs j (first + len / 2) hj' hlt hjm
          · have : j = first + len / 2 := by omega
            subst this
            exact le_refl _
        · intro j q hj hq
          exact hhi j q (by omega) hq
      · refine ih first (len / 2) (by omega) (by omega) hlo ?_ hk
        intro j q hj hq
        obtain ⟨hj', rfl⟩ := List.getElem?_eq_some_iff.mp hq
        refine le_trans (not_lt.mp hm) ?_
        rcases Nat.lt_or_ge (first + len / 2) j with hjm | hjm
        · exact List.pairwise_iff_getElem.mp hs (first + len / 2) j hlt hj' hjm
        · have : j = first + len / 2 := by omega
          subst this
          exact le_refl _

theorem lowerBound_sorted (qs : List ℚ) (hs : qs.Pairwise (· ≤ ·)) (t : ℚ) (k : Nat)
    (hk : lowerBound (qs.map F64.fin) (.fin t) = .ok k) :
    (∀ j q, j < k → qs[j]? = some q → q < t) ∧ (∀ j q, k ≤ j → qs[j]? = some q → t ≤ q) := by
  unfold lowerBound at hk
  refine lowerBoundGo_sorted qs hs t _ 0 (qs.map F64.fin).length k (by simp) (Nat.le_refl _) (by simp) ?_ hk
  intro j q hj hq
  rw [List.getElem?_eq_none (by simpa using hj)] at hq
  simp at hq

/-! ### Rounding to pixels -/

theorem round_rounds (q : ℚ) (k : ℤ) : (if 0 ≤ q then ⌊q + 1 / 2⌋ else ⌈q - 1 / 2⌉) = k ↔ Rounds q k := by
  unfold Rounds
  by_cases hq : 0 ≤ q
  · rw [if_pos hq, Int.floor_eq_iff, abs_of_nonneg hq]
    constructor
    · rintro ⟨h1, h2⟩
      rcases lt_or_eq_of_le h1 with h | h
      · left; rw [abs_lt]; constructor <;> linarith
      · right
        have hk : q = k - 1 / 2 := by linarith
        have hk0 : (0 : ℚ) ≤ k := by linarith
        refine ⟨by rw [hk]; norm_num, by rw [abs_of_nonneg hk0]; linarith⟩
    · rintro (h | ⟨h, h'⟩)
      · rw [abs_lt] at h; constructor <;> linarith
      · rcases abs_eq (by norm_num : (0 : ℚ) ≤ 1 / 2) |>.mp h with g | g
        · exfalso
          have : (k : ℚ) = q - 1 / 2 := by linarith
          have hk : |(k : ℚ)| ≤ q := by
            rw [abs_le]
            refine ⟨?_, by linarith⟩
            -- q - 1/2 is an integer ≥ -1/2, so it is not below -q
            have : (-1 : ℚ) < k := by linarith
            have : (-1 : ℤ) < k := by exact_mod_cast this
            have : (0 : ℤ) ≤ k := by omega
            have : (0 : ℚ) ≤ k := by exact_mod_cast this
            linarith
          linarith
        · constructor <;> linarith
  · rw [if_neg hq, Int.ceil_eq_iff]
    have hq' : q < 0 := not_le.mp hq
    rw [abs_of_neg hq']
    constructor
    · rintro ⟨h1, h2⟩
      rcases lt_or_eq_of_le h2 with h | h
      · left; rw [abs_lt]; constructor <;> linarith
      · right
        have hk : q = k + 1 / 2 := by linarith
        have hk0 : (k : ℚ) ≤ 0 := by linarith
        refine ⟨by rw [hk]; norm_num, by rw [abs_of_nonpos hk0]; linarith⟩
    · rintro (h | ⟨h, h'⟩)
      · rw [abs_lt] at h; constructor <;> linarith
      · rcases abs_eq (by norm_num : (0 : ℚ) ≤ 1 / 2) |>.mp h with g | g
        · constructor <;> linarith
        · exfalso
          have hk : |(k : ℚ)| ≤ -q := by
            rw [abs_le]
            refine ⟨by linarith, ?_⟩
            have : (k : ℚ) < 1 := by linarith
            have : (k : ℤ) < 1 := by exact_mod_cast this
            have : (k : ℤ) ≤ 0 := by omega
            have : (k : ℚ) ≤ 0 := by exact_mod_cast this
            linarith
          linarith

theorem truncQ_int (k : ℤ) : F64.truncQ (k : ℚ) = k := by unfold F64.truncQ; split_ifs <;> simp

theorem Spec.Rounds.unique {q : ℚ} {k l : ℤ} (h : Rounds q k) (h' : Rounds q l) : k = l := by
  rw [← round_rounds] at h h'
  rw [← h, ← h']

/-- What `toPixel` gives for finite input. -/
theorem toPixel_ok (sr : ℚ) (raw : F64) (hr : raw.isFinite = true) (k : ℤ) (h : toPixel (.fin sr) raw = .ok k) :
    PixelOf sr raw k := by
  unfold toPixel at h
  cases raw with
  | nan => simp [F64.isFinite] at hr
  | inf s => simp [F64.isFinite] at hr
  | fin a =>
    simp only [F64.mul] at h
    cases hv : F64.ofRat (a * sr) with
    | nan => rw [hv] at h; simp [F64.round, F64.toI32?] at h
    | inf s => rw [hv] at h; simp [F64.round, F64.toI32?] at h
    | fin v =>
      rw [hv] at h
      simp only [F64.round, F64.toI32?, truncQ_int] at h
      split_ifs at h with h1 h2 h2 <;> simp only [Res.ok.injEq, reduceCtorEq] at h
      · exact ⟨a, v, rfl, hv, (round_rounds v k).mp (by rw [if_pos h1]; exact h)⟩
      · exact ⟨a, v, rfl, hv, (round_rounds v k).mp (by rw [if_neg h1]; exact h)⟩

theorem Spec.PixelOf.unique {sr : ℚ} {raw : F64} {k l : ℤ} (h : PixelOf sr raw k) (h' : PixelOf sr raw l) : k = l := by
  obtain ⟨a, v, h1, h2, h3⟩ := h
  obtain ⟨a', v', h1', h2', h3'⟩ := h'
  rw [h1] at h1'; injection h1' with e; subst e
  rw [h2] at h2'; injection h2' with e; subst e
  exact h3.unique h3'

theorem Spec.PixelOf.finite {sr : ℚ} {raw : F64} {k : ℤ} (h : PixelOf sr raw k) : raw.isFinite = true := by
  obtain ⟨a, v, h1, _⟩ := h
  rw [h1]; rfl

/-- The only other outcome of `toPixel` is an undefined conversion. -/
theorem toPixel_cases (sr raw : F64) : (∃ k, toPixel sr raw = .ok k) ∨ toPixel sr raw = .ub .floatToInt := by
  unfold toPixel
  split
  · exact .inl ⟨_, rfl⟩
  · exact .inr rfl

theorem Spec.InBin.unique {qs : List ℚ} (hs : qs.Pairwise (· ≤ ·)) {t : ℚ} {i j : Nat} (h : InBin qs t i) (h' : InBin qs t j) :
    i = j := by
  obtain ⟨lo, hi, h1, h2, h3, h4⟩ := h
  obtain ⟨lo', hi', h1', h2', h3', h4'⟩ := h'
  obtain ⟨g1, rfl⟩ := List.getElem?_eq_some_iff.mp h1
  obtain ⟨g2, rfl⟩ := List.getElem?_eq_some_iff.mp h2
  obtain ⟨g1', rfl⟩ := List.getElem?_eq_some_iff.mp h1'
  obtain ⟨g2', rfl⟩ := List.getElem?_eq_some_iff.mp h2'
  have mono : ∀ a b (ha : a < qs.length) (hb : b < qs.length), a ≤ b → qs[a] ≤ qs[b] := by
    intro a b ha hb hab
    rcases Nat.lt_or_ge a b with hlt | hge
    · exact List.pairwise_iff_getElem.mp hs a b ha hb hlt
    · have : a = b := by omega
      subst this; exact le_refl _
  rcases Nat.lt_trichotomy i j with hlt | heq | hgt
  · have := mono (i + 1) j g2 g1' (by omega)
    linarith
  · exact heq
  · have := mono (j + 1) i g2' g1 (by omega)
    linarith

theorem Spec.Lands.unique {sr : ℚ} {qs : List ℚ} (hs : qs.Pairwise (· ≤ ·)) {d : Nat} {e : Entry} {i y x i' y' x' : Nat}
    (h : Lands sr qs d e i y x) (h' : Lands sr qs d e i' y' x') : i = i' ∧ y = y' ∧ x = x' := by
  obtain ⟨t, s, h1, -, h3, h4, -, h6, h7, -⟩ := h
  obtain ⟨t', s', h1', -, h3', h4', -, h6', h7', -⟩ := h'
  rw [h1] at h1'; injection h1' with e1; subst e1
  rw [h3] at h3'; injection h3' with e1; subst e1
  refine ⟨h4.unique hs h4', ?_, ?_⟩
  · exact_mod_cast h7.unique h7'
  · exact_mod_cast h6.unique h6'

theorem ofRat_billion : F64.ofRat 1000000000 = .fin 1000000000 := by
  have := F64.ofRat_int (n := 1000000000) (by norm_num)
  exact_mod_cast this

/-- `placeEntry` computes the specification, for sorted finite edges, when it is defined. -/
theorem placeEntry_ok (sr : ℚ) (qs : List ℚ) (hs : qs.Pairwise (· ≤ ·)) (hl : 2 ≤ qs.length) (d : Nat) (e : Entry)
    (r : Option (Nat × Nat × Nat))
    (h : placeEntry (.fin sr) (qs.map .fin) (qs.length - 1) d e = .ok r) (i y x : Nat) :
    r = some (i, y, x) ↔ Lands sr qs d e i y x := by
  have hne : qs ≠ [] := by intro h0; rw [h0] at hl; simp at hl
  have hhead : (qs.map F64.fin).head? = some (.fin (qs.head hne)) := by
    rw [List.head?_map, List.head?_eq_some_head hne]; rfl
  have hlast : (qs.map F64.fin).getLast? = some (.fin (qs.getLast hne)) := by
    rw [List.getLast?_map, List.getLast?_eq_some_getLast hne]; rfl
  have hlast' : qs.getLast? = some (qs.getLast hne) := List.getLast?_eq_some_getLast hne
  unfold placeEntry at h
  -- time of flight
  cases ht : e.tof with
  | nan =>
    rw [ht] at h
    simp only [F64.isFinite, F64.lt, Bool.not_false, Bool.or_true, if_true, Res.ok.injEq] at h
    subst h
    constructor
    · intro h; simp at h
    · rintro ⟨t, s, h1, _⟩; rw [ht] at h1; simp at h1
  | inf b =>
    rw [ht] at h
    simp only [F64.isFinite, Bool.not_false, Bool.or_true, if_true, Res.ok.injEq] at h
    subst h
    constructor
    · intro h; simp at h
    · rintro ⟨t, s, h1, _⟩; rw [ht] at h1; simp at h1
  | fin t =>
    rw [ht, hhead, hlast] at h
    have hdiv : F64.div (.fin t) (F64.ofRat 1000000000) = F64.ofRat (t / 1000000000) := by
      rw [ofRat_billion]; simp only [F64.div]; rw [if_neg (by norm_num)]
    have hfin : (F64.fin t).isFinite = true := rfl
    have hlt : ∀ a b : ℚ, F64.lt (.fin a) (.fin b) = decide (a < b) := fun _ _ => rfl
    have hle : ∀ a b : ℚ, F64.le (.fin a) (.fin b) = decide (a ≤ b) := fun _ _ => rfl
    rw [hdiv, hfin, hlt] at h
    simp only [Bool.not_true, Bool.or_false, decide_eq_true_eq] at h
    clear hfin
    by_cases h0 : t < 0
    · rw [if_pos h0] at h
      injection h with h; subst h
      constructor
      · intro h; simp at h
      · rintro ⟨t', s, h1, h2, _⟩; rw [ht] at h1; injection h1 with h1; subst h1; linarith
    · rw [if_neg h0] at h
      cases hv : F64.ofRat (t / 1000000000) with
      | nan =>
        exfalso
        unfold F64.ofRat at hv
        simp only at hv
        split_ifs at hv
      | inf b =>
        -- the quotient overflows; such a time is not in any bin
        have hb : b = false := by
          unfold F64.ofRat at hv
          simp only at hv
          split_ifs at hv
          injection hv with hv
          rw [← hv, decide_eq_false_iff_not, not_lt]
          apply div_nonneg (not_lt.mp h0) (by norm_num)
        subst hb
        rw [hv] at h
        have hle' : ∀ a : ℚ, F64.le (.fin a) (.inf false) = true := fun _ => rfl
        rw [hle'] at h
        simp only [Bool.or_true, if_true, Res.ok.injEq] at h
        subst h
        constructor
        · intro h; simp at h
        · rintro ⟨t', s, h1, h2, h3, _⟩
          rw [ht] at h1; injection h1 with h1; subst h1
          rw [hv] at h3; simp at h3
      | fin s =>
        rw [hv] at h
        rw [hlt, hle] at h
        simp only [Bool.or_eq_true, decide_eq_true_eq] at h
        have hL : Lands sr qs d e i y x ↔ InBin qs s i ∧ s < qs.getLast hne ∧ PixelOf sr e.x x ∧ PixelOf sr e.y y ∧
            x < d ∧ y < d := by
          unfold Lands
          constructor
          · rintro ⟨t', s', h1, h2, h3, h4, h5, h6⟩
            rw [ht] at h1; injection h1 with h1; subst h1
            rw [hv] at h3; injection h3 with h3; subst h3
            exact ⟨h4, h5 _ hlast', h6⟩
          · rintro ⟨h4, h5, h6⟩
            refine ⟨t, s, ht, not_lt.mp h0, hv, h4, ?_, h6⟩
            intro l hl'
            rw [hlast'] at hl'
            injection hl' with hl'
            subst hl'
            exact h5
        rw [hL]
        by_cases hr : s < qs.head hne ∨ qs.getLast hne ≤ s
        · rw [if_pos hr] at h
          injection h with h; subst h
          constructor
          · intro h; simp at h
          · rintro ⟨⟨lo, hi, g1, g2, g3, g4⟩, g5, _⟩
            rcases hr with hr | hr
            · exfalso
              obtain ⟨gi, rfl⟩ := List.getElem?_eq_some_iff.mp g1
              have hh : qs.head hne ≤ qs[i] := by
                rw [List.head_eq_getElem]
                rcases Nat.eq_zero_or_pos i with rfl | hpos
                · exact le_refl _
                · exact List.pairwise_iff_getElem.mp hs 0 i (by omega) gi hpos
              linarith
            · linarith
        · rw [if_neg hr] at h
          obtain ⟨k, hk, hkl⟩ := lowerBound_le (qs.map F64.fin) (.fin s)
          rw [List.length_map] at hkl
          rw [hk] at h
          simp only [bind, Res.bind] at h
          obtain ⟨b1, b2⟩ := lowerBound_sorted qs hs s k hk
          push Not at hr
          have hklt : k < qs.length := by
            by_contra hge
            have hq : qs[qs.length - 1]? = some (qs.getLast hne) := by
              rw [List.getLast_eq_getElem, List.getElem?_eq_getElem]
            have := b1 (qs.length - 1) _ (by omega) hq
            linarith [hr.2]
          by_cases hk0 : k = 0
          · rw [if_pos hk0] at h
            injection h with h; subst h
            constructor
            · intro h; simp at h
            · rintro ⟨⟨lo, hi, g1, g2, g3, g4⟩, _⟩
              have := b2 i lo (by omega) g1
              linarith
          · have hbin : ∀ j, InBin qs s j ↔ j = k - 1 := by
              intro j
              have hthis : InBin qs s (k - 1) := by
                refine ⟨qs[k - 1], qs[k], List.getElem?_eq_getElem (by omega), ?_, ?_, ?_⟩
                · rw [show k - 1 + 1 = k by omega, List.getElem?_eq_getElem hklt]
                · exact b1 (k - 1) _ (by omega) (List.getElem?_eq_getElem (by omega))
                · exact b2 k _ (le_refl _) (List.getElem?_eq_getElem hklt)
              constructor
              · intro hj; exact hj.unique hs hthis
              · rintro rfl; exact hthis
            rw [if_neg hk0, if_neg (by omega)] at h
            by_cases hfin : e.x.isFinite = true ∧ e.y.isFinite = true
            · rw [hfin.1, hfin.2, if_neg (by decide)] at h
              cases hx : toPixel (.fin sr) e.x with
              | throws m => rw [hx] at h; simp at h
              | ub u => rw [hx] at h; simp at h
              | ok xx =>
                rw [hx] at h
                simp only at h
                cases hy : toPixel (.fin sr) e.y with
                | throws m => rw [hy] at h; simp at h
                | ub u => rw [hy] at h; simp at h
                | ok yy =>
                  rw [hy] at h
                  simp only at h
                  have px := toPixel_ok sr _ hfin.1 _ hx
                  have py := toPixel_ok sr _ hfin.2 _ hy
                  split_ifs at h with hin
                  · injection h with h; subst h
                    rw [Option.some.injEq, Prod.mk.injEq, Prod.mk.injEq]
                    constructor
                    · rintro ⟨rfl, rfl, rfl⟩
                      refine ⟨(hbin _).mpr rfl, hr.2, ?_, ?_, by omega, by omega⟩
                      · rw [Int.toNat_of_nonneg hin.1]; exact px
                      · rw [Int.toNat_of_nonneg hin.2.2.1]; exact py
                    · rintro ⟨g1, -, g3, g4, -, -⟩
                      have := (hbin i).mp g1
                      have := px.unique g3
                      have := py.unique g4
                      omega
                  · injection h with h; subst h
                    constructor
                    · intro h; simp at h
                    · rintro ⟨g1, -, g3, g4, g5, g6⟩
                      have := px.unique g3
                      have := py.unique g4
                      omega
            · rw [if_pos (by
                rw [Bool.not_eq_true', Bool.not_eq_true']
                by_contra hc
                push Not at hc
                rw [ne_eq, ne_eq, Bool.not_eq_false, Bool.not_eq_false] at hc
                exact hfin hc)] at h
              injection h with h; subst h
              constructor
              · intro h; simp at h
              · rintro ⟨-, -, g3, g4, -, -⟩
                exact absurd ⟨g3.finite, g4.finite⟩ hfin

/-- All outcomes of `placeEntry` with at least one edge: a place inside the images, nothing, or an undefined
conversion of a finite coordinate. -/
theorem placeEntry_cases (sr : F64) (edges : List F64) (hl : edges ≠ []) (n : Nat) (d : Int) (e : Entry) :
    (placeEntry sr edges n d e = .ub .floatToInt ∧ e.x.isFinite = true ∧ e.y.isFinite = true ∧
      (toPixel sr e.x = .ub .floatToInt ∨ toPixel sr e.y = .ub .floatToInt)) ∨
    placeEntry sr edges n d e = .ok none ∨
    ∃ b y x, placeEntry sr edges n d e = .ok (some (b, y, x)) ∧ b < n ∧ (y : Int) < d ∧ (x : Int) < d := by
  unfold placeEntry
  split
  · exact .inr (.inl rfl)
  · simp only
    rw [List.head?_eq_some_head hl, List.getLast?_eq_some_getLast hl]
    simp only
    split
    · exact .inr (.inl rfl)
    · obtain ⟨k, hk, -⟩ := lowerBound_le edges (F64.div e.tof (F64.ofRat 1000000000))
      rw [hk]
      simp only [bind, Res.bind]
      split
      · exact .inr (.inl rfl)
      · split
        · exact .inr (.inl rfl)
        · split
          · exact .inr (.inl rfl)
          · rename_i hfin
            rw [Bool.or_eq_true, Bool.not_eq_true', Bool.not_eq_true'] at hfin
            push Not at hfin
            rw [ne_eq, ne_eq, Bool.not_eq_false, Bool.not_eq_false] at hfin
            rcases toPixel_cases sr e.x with ⟨x, hx⟩ | hx
            · rcases toPixel_cases sr e.y with ⟨y, hy⟩ | hy
              · rw [hx, hy]
                simp only
                split_ifs with hin
                · exact .inr (.inr ⟨_, _, _, rfl, by omega, by omega, by omega⟩)
                · exact .inr (.inl rfl)
              · rw [hx, hy]
                exact .inl ⟨rfl, hfin.1, hfin.2, .inr rfl⟩
            · rw [hx]
              exact .inl ⟨rfl, hfin.1, hfin.2, .inl rfl⟩

/-! ### Stacks of images -/

/-- `n` images of `d` rows and columns. -/
structure Shaped (n d : Nat) (im : Stack) : Prop where
  len : im.length = n
  rows : ∀ img ∈ im, img.length = d
  cols : ∀ img ∈ im, ∀ row ∈ img, row.length = d

theorem zeroStack_shaped (n d : Nat) (im : Stack) (h : zeroStack n d = .ok im) : Shaped n d im := by
  unfold zeroStack at h
  split_ifs at h with h1 h2
  · injection h with h; subst h
    exact ⟨by simp [h1], by simp, by simp⟩
  · injection h with h; subst h
    refine ⟨by simp, ?_, ?_⟩
    · intro img hi; rw [(List.mem_replicate.mp hi).2]; simp
    · intro img hi row hr
      rw [(List.mem_replicate.mp hi).2] at hr
      rw [(List.mem_replicate.mp hr).2]; simp

theorem pixel_zeroStack (n d : Nat) (im : Stack) (h : zeroStack n d = .ok im) (i y x : Nat) :
    pixel im i y x = if i < n ∧ y < d ∧ x < d then some 0 else none := by
  unfold zeroStack at h
  split_ifs at h with h1 h2
  · injection h with h; subst h
    rw [if_neg (by omega)]; rfl
  · injection h with h; subst h
    unfold pixel
    simp only [Int.toNat_natCast, List.getElem?_replicate]
    by_cases a : i < n
    · by_cases b : y < d
      · by_cases c : x < d
        · simp [a, b, c]
        · simp [a, b, c]
      · simp [a, b]
    · simp [a]

theorem pixel_isSome {n d : Nat} {im : Stack} (h : Shaped n d im) (i y x : Nat) :
    (pixel im i y x).isSome = true ↔ i < n ∧ y < d ∧ x < d := by
  unfold pixel
  rw [Option.isSome_map]
  by_cases a : i < n
  · have a' : i < im.length := by rw [h.len]; exact a
    rw [List.getElem?_eq_getElem a']
    have hr := h.rows _ (List.getElem_mem a')
    by_cases b : y < d
    · have b' : y < im[i].length := by rw [hr]; exact b
      simp only [Option.bind_some]
      rw [List.getElem?_eq_getElem b']
      have hc := h.cols _ (List.getElem_mem a') _ (List.getElem_mem b')
      simp only [Option.bind_some, isSome_getElem?, hc]
      tauto
    · simp only [Option.bind_some]
      rw [List.getElem?_eq_none (by rw [hr]; omega)]
      simp [b]
  · rw [List.getElem?_eq_none (by rw [h.len]; omega)]
    simp [a]

/-- Images of one shape with the same pixels are equal. -/
theorem stack_ext {n d : Nat} {im im' : Stack} (h : Shaped n d im) (h' : Shaped n d im')
    (hp : ∀ i y x, pixel im i y x = pixel im' i y x) : im = im' := by
  apply List.ext_getElem (by rw [h.len, h'.len])
  intro i hi hi'
  apply List.ext_getElem (by rw [h.rows _ (List.getElem_mem hi), h'.rows _ (List.getElem_mem hi')])
  intro y hy hy'
  apply List.ext_getElem
    (by rw [h.cols _ (List.getElem_mem hi) _ (List.getElem_mem hy), h'.cols _ (List.getElem_mem hi') _ (List.getElem_mem hy')])
  intro x hx hx'
  have := hp i y x
  unfold pixel at this
  rw [List.getElem?_eq_getElem hi, List.getElem?_eq_getElem hi'] at this
  simp only [Option.bind_some] at this
  rw [List.getElem?_eq_getElem hy, List.getElem?_eq_getElem hy'] at this
  simp only [Option.bind_some] at this
  rw [List.getElem?_eq_getElem hx, List.getElem?_eq_getElem hx'] at this
  simpa [BitVec.toNat_inj] using this

theorem bump_spec {n d : Nat} {im : Stack} (h : Shaped n d im) {b y x : Nat} (hb : b < n) (hy : y < d) (hx : x < d) :
    ∃ im', bump im b y x = .ok im' ∧ Shaped n d im' ∧
      ∀ i j k, pixel im' i j k =
        if i = b ∧ j = y ∧ k = x then (pixel im i j k).map (fun v => (v + 1) % 2 ^ 32) else pixel im i j k := by
  have a' : b < im.length := by rw [h.len]; exact hb
  have b' : y < im[b].length := by rw [h.rows _ (List.getElem_mem a')]; exact hy
  have c' : x < im[b][y].length := by
    rw [h.cols _ (List.getElem_mem a') _ (List.getElem_mem b')]; exact hx
  refine ⟨im.set b (im[b].set y (im[b][y].set x (im[b][y][x] + 1))), ?_, ?_, ?_⟩
  · unfold bump
    rw [List.getElem?_eq_getElem a']
    simp only
    rw [List.getElem?_eq_getElem b']
    simp only
    rw [List.getElem?_eq_getElem c']
  · refine ⟨by rw [List.length_set, h.len], ?_, ?_⟩
    · intro img hi
      rcases List.mem_or_eq_of_mem_set hi with hi | rfl
      · exact h.rows _ hi
      · rw [List.length_set]; exact h.rows _ (List.getElem_mem a')
    · intro img hi row hr
      rcases List.mem_or_eq_of_mem_set hi with hi | rfl
      · exact h.cols _ hi _ hr
      · rcases List.mem_or_eq_of_mem_set hr with hr | rfl
        · exact h.cols _ (List.getElem_mem a') _ hr
        · rw [List.length_set]; exact h.cols _ (List.getElem_mem a') _ (List.getElem_mem b')
  · intro i j k
    unfold pixel
    by_cases hi : b = i
    · subst hi
      rw [List.getElem?_set_self a', List.getElem?_eq_getElem a']
      simp only [Option.bind_some, true_and]
      by_cases hj : y = j
      · subst hj
        rw [List.getElem?_set_self b', List.getElem?_eq_getElem b']
        simp only [Option.bind_some, true_and]
        by_cases hk : x = k
        · subst hk
          rw [List.getElem?_set_self c', List.getElem?_eq_getElem c']
          simp [BitVec.toNat_add]
        · rw [List.getElem?_set_ne hk, if_neg (fun e => hk e.symm)]
      · rw [List.getElem?_set_ne hj, if_neg (fun e => hj e.1.symm)]
    · rw [List.getElem?_set_ne hi, if_neg (fun e => hi e.1.symm)]

theorem addEntry_ok {n d : Nat} {im : Stack} (h : Shaped n d im) (sr : F64) (edges : List F64) (hl : edges ≠ [])
    (e : Entry) :
    ((∃ r, placeEntry sr edges n d e = .ok r) → ∃ im', addEntry sr edges d im e = .ok im' ∧ Shaped n d im') ∧
    (∀ im', addEntry sr edges d im e = .ok im' → Shaped n d im' ∧ ∃ r, placeEntry sr edges n d e = .ok r ∧
      ∀ i y x, pixel im' i y x =
        if r = some (i, y, x) then (pixel im i y x).map (fun v => (v + 1) % 2 ^ 32) else pixel im i y x) := by
  unfold addEntry
  rw [h.len]
  rcases placeEntry_cases sr edges hl n d e with ⟨h1, -⟩ | h1 | ⟨b, y, x, h1, h2, h3, h4⟩
  · rw [h1]
    constructor
    · rintro ⟨r, hr⟩; simp at hr
    · intro im' hi; simp [bind, Res.bind] at hi
  · rw [h1]
    simp only [bind, Res.bind]
    constructor
    · intro _; exact ⟨im, rfl, h⟩
    · intro im' hi
      injection hi with hi; subst hi
      exact ⟨h, none, rfl, by simp⟩
  · rw [h1]
    simp only [bind, Res.bind]
    obtain ⟨im1, g1, g2, g3⟩ := bump_spec h h2 (y := y) (x := x) (by omega) (by omega)
    rw [g1]
    constructor
    · intro _; exact ⟨im1, rfl, g2⟩
    · intro im' hi
      injection hi with hi; subst hi
      refine ⟨g2, _, rfl, ?_⟩
      intro i j k
      rw [g3 i j k]
      simp only [Option.some.injEq, Prod.mk.injEq, eq_comm]

theorem addEntries_append (sr : F64) (edges : List F64) (d : Int) (im : Stack) (as bs : List Entry) :
    addEntries sr edges d im (as ++ bs) = (addEntries sr edges d im as).bind fun im' => addEntries sr edges d im' bs := by
  induction as generalizing im with
  | nil => rfl
  | cons a as ih =>
    rw [List.cons_append, addEntries, addEntries]
    simp only [bind]
    cases addEntry sr edges d im a with
    | ok im' => simp only [Res.bind]; exact ih im'
    | throws m => rfl
    | ub u => rfl

theorem addEntries_shaped {n d : Nat} {im : Stack} (h : Shaped n d im) (sr : F64) (edges : List F64) (hl : edges ≠ [])
    (es : List Entry) (im' : Stack) (hr : addEntries sr edges d im es = .ok im') : Shaped n d im' := by
  induction es generalizing im with
  | nil => rw [addEntries] at hr; injection hr with hr; subst hr; exact h
  | cons e es ih =>
    rw [addEntries] at hr
    simp only [bind] at hr
    cases ha : addEntry sr edges d im e with
    | ok im1 => rw [ha] at hr; exact ih ((addEntry_ok h sr edges hl e).2 im1 ha).1 hr
    | throws m => rw [ha] at hr; simp [Res.bind] at hr
    | ub u => rw [ha] at hr; simp [Res.bind] at hr

theorem addEntries_isOk {n d : Nat} {im : Stack} (h : Shaped n d im) (sr : F64) (edges : List F64) (hl : edges ≠ [])
    (es : List Entry) : (∃ im', addEntries sr edges d im es = .ok im') ↔
      ∀ e ∈ es, ∃ r, placeEntry sr edges n d e = .ok r := by
  induction es generalizing im with
  | nil => simp [addEntries]
  | cons e es ih =>
    rw [addEntries]
    simp only [bind, List.mem_cons, forall_eq_or_imp]
    cases ha : addEntry sr edges d im e with
    | ok im1 =>
      obtain ⟨g1, r, g2, -⟩ := (addEntry_ok h sr edges hl e).2 im1 ha
      simp only [Res.bind]
      rw [ih g1]
      exact ⟨fun x => ⟨⟨r, g2⟩, x⟩, fun x => x.2⟩
    | throws m =>
      simp only [Res.bind, reduceCtorEq, exists_false, false_iff, not_and]
      intro hp
      obtain ⟨im', hi, -⟩ := (addEntry_ok h sr edges hl e).1 hp
      rw [ha] at hi; simp at hi
    | ub u =>
      simp only [Res.bind, reduceCtorEq, exists_false, false_iff, not_and]
      intro hp
      obtain ⟨im', hi, -⟩ := (addEntry_ok h sr edges hl e).1 hp
      rw [ha] at hi; simp at hi

theorem pixel_lt (im : Stack) (i y x v : Nat) (h : pixel im i y x = some v) : v < 2 ^ 32 := by
  unfold pixel at h
  obtain ⟨w, -, rfl⟩ := Option.map_eq_some_iff.mp h
  exact BitVec.isLt w

/-- After adding entries every pixel has grown by the number of entries that land there. -/
theorem addEntries_pixel (sr : ℚ) (qs : List ℚ) (hs : qs.Pairwise (· ≤ ·)) (hl : 2 ≤ qs.length) {d : Nat} {im : Stack}
    (h : Shaped (qs.length - 1) d im) (es : List Entry) (im' : Stack)
    (hr : addEntries (.fin sr) (qs.map .fin) d im es = .ok im') (i y x : Nat) :
    pixel im' i y x = (pixel im i y x).map fun v => (v + counted sr qs d es i y x) % 2 ^ 32 := by
  have hne : qs.map F64.fin ≠ [] := by
    intro h0
    have := congrArg List.length h0
    rw [List.length_map] at this
    simp at this; rw [this] at hl; simp at hl
  induction es generalizing im with
  | nil =>
    rw [addEntries] at hr; injection hr with hr; subst hr
    cases hp : pixel im i y x with
    | none => rfl
    | some v =>
      have := pixel_lt _ _ _ _ _ hp
      simp only [counted, List.countP_nil, Nat.add_zero, Option.map_some]
      rw [Nat.mod_eq_of_lt this]
  | cons e es ih =>
    rw [addEntries] at hr
    simp only [bind] at hr
    cases ha : addEntry (.fin sr) (qs.map .fin) d im e with
    | throws m => rw [ha] at hr; simp [Res.bind] at hr
    | ub u => rw [ha] at hr; simp [Res.bind] at hr
    | ok im1 =>
      rw [ha] at hr
      obtain ⟨g1, r, g2, g3⟩ := (addEntry_ok h _ _ hne e).2 im1 ha
      rw [ih g1 hr, g3 i y x]
      have hL := placeEntry_ok sr qs hs hl d e r g2 i y x
      unfold counted
      rw [List.countP_cons]
      by_cases hland : r = some (i, y, x)
      · rw [if_pos hland, if_pos (by simpa using hL.mp hland), Option.map_map]
        congr 1
        funext v
        simp only [Function.comp]
        omega
      · rw [if_neg hland, if_neg (by simpa using fun hh => hland (hL.mpr hh)), Nat.add_zero]

end Verif
