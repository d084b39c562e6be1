import Verif.Props.Peak
import Verif.Props.LegacyFiles
import Verif.Spec.GaussFit
import Mathlib.Analysis.InnerProductSpace.Projection.Minimal
import Mathlib.Analysis.InnerProductSpace.PiL2

/-!
# C101: where the Gaussian fit puts a neutron
-/

namespace Verif.Props

open Verif Verif.Spec

theorem misfit_nonneg (v : Coeffs) (S : List Sample) : 0 ≤ misfit v S :=
  List.sum_nonneg (by simp only [List.mem_map]; rintro x ⟨s, -, rfl⟩; positivity)

theorem misfit_cons (v : Coeffs) (s : Sample) (S : List Sample) :
    misfit v (s :: S) = (s.x ^ 2 + s.y ^ 2 - v.value s) ^ 2 + misfit v S := by
  simp [misfit]

theorem best_of_exact {v : Coeffs} {S : List Sample} (h : ∀ s ∈ S, s.x ^ 2 + s.y ^ 2 = v.value s) : IsBest v S := by
  intro w
  have : misfit v S = 0 := by
    unfold misfit
    apply List.sum_eq_zero
    simp only [List.mem_map]
    rintro x ⟨s, hs, rfl⟩
    rw [h s hs]; ring
  rw [this]
  exact misfit_nonneg w S

theorem misfit_eq_zero {v : Coeffs} {S : List Sample} (h : misfit v S = 0) : ∀ s ∈ S, s.x ^ 2 + s.y ^ 2 = v.value s := by
  induction S with
  | nil => simp
  | cons s S ih =>
    rw [misfit_cons] at h
    have h1 := misfit_nonneg v S
    have h2 := sq_nonneg (s.x ^ 2 + s.y ^ 2 - v.value s)
    have h3 : (s.x ^ 2 + s.y ^ 2 - v.value s) ^ 2 = 0 := by linarith
    intro s' hs'
    rcases List.mem_cons.mp hs' with rfl | hs'
    · have := pow_eq_zero_iff (two_ne_zero) |>.mp h3
      linarith
    · exact ih (by linarith) s' hs'

/-- There is always a solution of the problem of least squares. -/
theorem c101_exists (S : List Sample) : ∃ v, IsBest v S := by
  let E := EuclideanSpace ℝ (Fin S.length)
  let u : E := WithLp.toLp 2 fun i => (S[i]).x ^ 2 + (S[i]).y ^ 2
  let f : (Fin 4 → ℝ) →ₗ[ℝ] E :=
    { toFun := fun c => WithLp.toLp 2 fun i => c 0 * (S[i]).x + c 1 * (S[i]).y + c 2 * Real.log (S[i]).t + c 3
      map_add' := by
        intro c d; ext i
        change (c 0 + d 0) * (S[i]).x + (c 1 + d 1) * (S[i]).y + (c 2 + d 2) * Real.log (S[i]).t + (c 3 + d 3) =
          (c 0 * (S[i]).x + c 1 * (S[i]).y + c 2 * Real.log (S[i]).t + c 3) +
            (d 0 * (S[i]).x + d 1 * (S[i]).y + d 2 * Real.log (S[i]).t + d 3)
        ring
      map_smul' := by
        intro c d; ext i
        change (c * d 0) * (S[i]).x + (c * d 1) * (S[i]).y + (c * d 2) * Real.log (S[i]).t + c * d 3 =
          c * (d 0 * (S[i]).x + d 1 * (S[i]).y + d 2 * Real.log (S[i]).t + d 3)
        ring }
  have hres : ∀ c : Fin 4 → ℝ, misfit ⟨c 0, c 1, c 2, c 3⟩ S = ‖u - f c‖ ^ 2 := by
    intro c
    rw [EuclideanSpace.norm_sq_eq]
    unfold misfit
    rw [← List.sum_ofFn]
    congr 1
    apply List.ext_getElem
    · simp
    · intro i h1 h2
      simp [u, f, Coeffs.value]
      rfl
  obtain ⟨w, hw, hmin⟩ := Submodule.exists_norm_eq_iInf_of_complete_subspace (LinearMap.range f)
    (Submodule.complete_of_finiteDimensional _) u
  obtain ⟨c, rfl⟩ := hw
  refine ⟨⟨c 0, c 1, c 2, c 3⟩, fun w => ?_⟩
  have e : misfit w S = ‖u - f ![w.a, w.b, w.c, w.d]‖ ^ 2 := by
    rw [← hres]; rfl
  rw [hres, e, hmin]
  apply pow_le_pow_left₀ (Real.iInf_nonneg fun _ => norm_nonneg _)
  exact ciInf_le ⟨0, by rintro x ⟨y, rfl⟩; exact norm_nonneg _⟩ (⟨_, LinearMap.mem_range_self f _⟩ : LinearMap.range f)

noncomputable def Coeffs.mid (v w : Coeffs) : Coeffs := ⟨(v.a + w.a) / 2, (v.b + w.b) / 2, (v.c + w.c) / 2, (v.d + w.d) / 2⟩

theorem misfit_mid (v w : Coeffs) (S : List Sample) :
    misfit (Coeffs.mid v w) S + (S.map fun s => ((v.value s - w.value s) / 2) ^ 2).sum = (misfit v S + misfit w S) / 2 := by
  induction S with
  | nil => simp [misfit]
  | cons s S ih =>
    simp only [misfit_cons, List.map_cons, List.sum_cons]
    have : (s.x ^ 2 + s.y ^ 2 - (Coeffs.mid v w).value s) ^ 2 + ((v.value s - w.value s) / 2) ^ 2 =
        ((s.x ^ 2 + s.y ^ 2 - v.value s) ^ 2 + (s.x ^ 2 + s.y ^ 2 - w.value s) ^ 2) / 2 := by
      unfold Coeffs.value Coeffs.mid; ring
    linarith

/-- Two solutions have the same values at all samples. -/
theorem best_values {v w : Coeffs} {S : List Sample} (hv : IsBest v S) (hw : IsBest w S) : ∀ s ∈ S, v.value s = w.value s := by
  have h1 := misfit_mid v w S
  have h2 := hv (Coeffs.mid v w)
  have h3 := hv w
  have h4 := hw v
  have h0 : (S.map fun s => ((v.value s - w.value s) / 2) ^ 2).sum ≤ 0 := by linarith
  clear h1 h2 h3 h4 hv hw
  induction S with
  | nil => simp
  | cons s S ih =>
    simp only [List.map_cons, List.sum_cons] at h0
    have h5 : 0 ≤ (S.map fun s => ((v.value s - w.value s) / 2) ^ 2).sum :=
      List.sum_nonneg (by simp only [List.mem_map]; rintro x ⟨s, -, rfl⟩; positivity)
    have h6 := sq_nonneg ((v.value s - w.value s) / 2)
    intro s' hs'
    rcases List.mem_cons.mp hs' with rfl | hs'
    · have := pow_eq_zero_iff (two_ne_zero) |>.mp (le_antisymm (by linarith) h6)
      linarith
    · exact ih (by linarith) s' hs'

/-- The place is determined exactly if no relation between the columns involves `x` or `y`. -/
theorem c101_determined (S : List Sample) :
    Determined S ↔ ∀ r : Coeffs, (∀ s ∈ S, r.value s = 0) → r.a = 0 ∧ r.b = 0 := by
  constructor
  · intro h r hr
    obtain ⟨v, hv⟩ := c101_exists S
    have hw : IsBest ⟨v.a + r.a, v.b + r.b, v.c + r.c, v.d + r.d⟩ S := by
      intro w
      refine le_trans (le_of_eq ?_) (hv w)
      unfold misfit
      congr 1
      apply List.map_congr_left
      intro s hs
      have e : (⟨v.a + r.a, v.b + r.b, v.c + r.c, v.d + r.d⟩ : Coeffs).value s = v.value s + r.value s := by
        unfold Coeffs.value; ring
      rw [e, hr s hs, add_zero]
    have := h v _ hv hw
    simp only at this
    constructor <;> linarith [this.1, this.2]
  · intro h v w hv hw
    have := h ⟨v.a - w.a, v.b - w.b, v.c - w.c, v.d - w.d⟩ (by
      intro s hs
      have e : (⟨v.a - w.a, v.b - w.b, v.c - w.c, v.d - w.d⟩ : Coeffs).value s = v.value s - w.value s := by
        unfold Coeffs.value; ring
      rw [e, best_values hv hw s hs, sub_self])
    simp only at this
    constructor <;> linarith [this.1, this.2]

/-- On a Gaussian peak the solution is its centre. -/
theorem gaussian_best {p q σ A : ℝ} {S : List Sample} (h : OnGaussian p q σ A S) :
    IsBest ⟨2 * p, 2 * q, -(2 * σ ^ 2), 2 * σ ^ 2 * Real.log A - p ^ 2 - q ^ 2⟩ S := by
  obtain ⟨hσ, hA, hs⟩ := h
  refine best_of_exact fun s hm => ?_
  unfold Coeffs.value
  rw [hs s hm, Real.log_mul hA.ne' (Real.exp_ne_zero _), Real.log_exp]
  have : (2 * σ ^ 2) ≠ 0 := by positivity
  field_simp
  ring

theorem circle_best {p q r : ℝ} {S : List Sample} (h : OnCircle p q r S) : IsBest ⟨2 * p, 2 * q, 0, r ^ 2 - p ^ 2 - q ^ 2⟩ S := by
  refine best_of_exact fun s hm => ?_
  have := h s hm
  unfold Coeffs.value
  nlinarith

/-- The solution moves with the samples. -/
theorem c101_shift (u w : ℝ) (S : List Sample) (v : Coeffs) (h : IsBest v S) :
    IsBest ⟨v.a + 2 * u, v.b + 2 * w, v.c, v.d - v.a * u - v.b * w - u ^ 2 - w ^ 2⟩ (S.map (Sample.shift u w)) := by
  have key : ∀ (v : Coeffs) (S : List Sample),
      misfit ⟨v.a + 2 * u, v.b + 2 * w, v.c, v.d - v.a * u - v.b * w - u ^ 2 - w ^ 2⟩ (S.map (Sample.shift u w)) = misfit v S := by
    intro v S
    unfold misfit
    rw [List.map_map]
    congr 1
    apply List.map_congr_left
    intro s _
    simp only [Function.comp, Sample.shift, Coeffs.value]
    congr 1
    ring
  intro z
  have e := key ⟨z.a - 2 * u, z.b - 2 * w, z.c, z.d + (z.a - 2 * u) * u + (z.b - 2 * w) * w + u ^ 2 + w ^ 2⟩ S
  have ez : (⟨z.a - 2 * u + 2 * u, z.b - 2 * w + 2 * w, z.c, z.d + (z.a - 2 * u) * u + (z.b - 2 * w) * w + u ^ 2 + w ^ 2 -
      (z.a - 2 * u) * u - (z.b - 2 * w) * w - u ^ 2 - w ^ 2⟩ : Coeffs) = z := by
    ext <;> simp only <;> ring
  simp only at e
  rw [ez] at e
  rw [key, e]
  exact h _

/-- The place of samples that are their own mirror image lies on the mirror. -/
theorem c101_mirror (c : ℝ) (S : List Sample) (hd : Determined S) (hp : (S.map (Sample.mirror c)).Perm S) (v : Coeffs)
    (h : IsBest v S) : v.a = 2 * c := by
  have key : ∀ v : Coeffs, misfit ⟨4 * c - v.a, v.b, v.c, v.d + 2 * c * v.a - 4 * c ^ 2⟩ (S.map (Sample.mirror c)) = misfit v S := by
    intro v
    unfold misfit
    rw [List.map_map]
    congr 1
    apply List.map_congr_left
    intro s _
    simp only [Function.comp, Sample.mirror, Coeffs.value]
    congr 1
    ring
  have hperm : ∀ v : Coeffs, misfit v (S.map (Sample.mirror c)) = misfit v S := by
    intro v
    unfold misfit
    exact (hp.map _).sum_eq
  have hb : IsBest ⟨4 * c - v.a, v.b, v.c, v.d + 2 * c * v.a - 4 * c ^ 2⟩ S := by
    intro w
    rw [← hperm, key]
    exact h w
  have := (hd v _ h hb).1
  simp only at this
  linarith

/-- If all samples lie in one row, every `y` is as good as every other. -/
theorem c101_row (S : List Sample) (y : ℝ) (hy : ∀ s ∈ S, s.y = y) (b : ℝ) : ∃ v, IsBest v S ∧ v.b = b := by
  obtain ⟨v, hv⟩ := c101_exists S
  refine ⟨⟨v.a, b, v.c, v.d + (v.b - b) * y⟩, fun w => le_trans (le_of_eq ?_) (hv w), rfl⟩
  unfold misfit
  congr 1
  apply List.map_congr_left
  intro s hs
  unfold Coeffs.value
  simp only [hy s hs]
  congr 1
  ring

/-! ## The program -/

theorem small_error {q : ℚ} (h : |q| ≤ 2 ^ 12) : |rndQ q - q| ≤ 1 / 2 ^ 40 := by
  by_cases h1 : (2 : ℚ) ^ (-1022 : ℤ) ≤ |q|
  · refine (abs_rndQ_sub_le h1).trans ?_
    have : |q| * (1 / 2 ^ 53) ≤ 2 ^ 12 * (1 / 2 ^ 53) := mul_le_mul_of_nonneg_right h (by norm_num)
    norm_num at this ⊢
    linarith
  · push Not at h1
    have hp : rndQ ((2 : ℚ) ^ (-1022 : ℤ)) = 2 ^ (-1022 : ℤ) := rndQ_of_grid 1 (-1022) (by norm_num) (by norm_num) (by norm_num)
    have h2 : |rndQ q| ≤ (2 : ℚ) ^ (-1022 : ℤ) := by
      rw [abs_le] at *
      constructor
      · have := rndQ_mono (p := -(2 : ℚ) ^ (-1022 : ℤ)) (q := q) (by linarith [(abs_lt.mp h1).1])
        rw [rndQ_neg, hp] at this
        exact this
      · rw [← hp]
        exact rndQ_mono (by linarith [(abs_lt.mp h1).2])
    have h3 : (2 : ℚ) ^ (-1022 : ℤ) ≤ 2 ^ (-50 : ℤ) := zpow_le_zpow_right₀ (by norm_num) (by norm_num)
    have h4 := abs_sub (rndQ q) q
    have h5 : (2 : ℚ) ^ (-50 : ℤ) = 1 / 2 ^ 50 := by norm_num
    have h6 : (1 : ℚ) / 2 ^ 50 + 1 / 2 ^ 50 ≤ 1 / 2 ^ 40 := by norm_num
    rw [h5] at h3
    exact h4.trans ((add_le_add (h2.trans h3) (h1.le.trans h3)).trans h6)

theorem half_close {a : ℚ} {z ε : ℝ} (ha : |(a : ℝ) - 2 * z| ≤ ε) (hz : |z| ≤ 2 ^ 11) (he : ε ≤ 1) :
    ∃ x : ℚ, F64.div (.fin a) (F64.ofRat 2) = .fin x ∧ |(x : ℝ) - z| ≤ ε / 2 + 1 / 2 ^ 40 := by
  have h2 : F64.ofRat 2 = .fin 2 := by
    have := F64.ofRat_int (n := 2) (by norm_num)
    simpa using this
  have hb : |(a : ℝ) / 2| ≤ 2 ^ 12 := by
    rw [abs_le] at *
    constructor <;> linarith [ha.1, ha.2, hz.1, hz.2]
  have hq : |a / 2| ≤ 2 ^ 12 := by
    have : ((|a / 2| : ℚ) : ℝ) ≤ ((2 ^ 12 : ℚ) : ℝ) := by push_cast; exact hb
    exact_mod_cast this
  refine ⟨rndQ (a / 2), ?_, ?_⟩
  · rw [h2]
    simp only [F64.div]
    rw [if_neg (by norm_num), F64.ofRat_fin]
    refine hq.trans ?_
    rw [show ((2 : ℚ) ^ 12) = 2 ^ (12 : ℤ) by norm_num]
    exact zpow_le_zpow_right₀ (by norm_num) (by norm_num)
  · have h3 : |((rndQ (a / 2) : ℚ) : ℝ) - (a : ℝ) / 2| ≤ 1 / 2 ^ 40 := by
      have := small_error hq
      have h' : ((|rndQ (a / 2) - a / 2| : ℚ) : ℝ) ≤ ((1 / 2 ^ 40 : ℚ) : ℝ) := by exact_mod_cast this
      push_cast at h'
      exact h'
    rw [abs_le] at *
    constructor <;> linarith [ha.1, ha.2, h3.1, h3.2]

theorem median_unique {m m' : ℚ} {l : List Int} (h : IsMedian m l) (h' : IsMedian m' l) : m = m' := by
  obtain ⟨s, p, o, a, b, ha, hb, rfl⟩ := h
  obtain ⟨s', p', o', a', b', ha', hb', rfl⟩ := h'
  have : s = s' := (p.trans p'.symm).eq_of_pairwise (fun _ _ _ _ => le_antisymm) o o'
  subst this
  rw [ha] at ha'
  rw [hb] at hb'
  simp only [Option.some.injEq] at ha' hb'
  rw [ha', hb']

/-- The rows that the solver gets from hits above the median. -/
def fitRows (m : ℚ) (used : List Hit) : List GaussRow :=
  used.map fun h => ⟨.fin h.x, .fin h.y, .fin ((h.tot : ℚ) - m), F64.ofInt (tofOf h)⟩

/-- The event lies at `(p, q)`, up to half the error of the solver and 2^-40 pixel. -/
def EventAt (ε p q : ℝ) (e : Neutron) : Prop :=
  ∃ x y : ℚ, e.x = .fin x ∧ e.y = .fin y ∧ |(x : ℝ) - p| ≤ ε / 2 + 1 / 2 ^ 40 ∧ |(y : ℝ) - q| ≤ ε / 2 + 1 / 2 ^ 40

/-- The event lies where the problem of least squares puts it. -/
theorem fit_place (solve : List GaussRow → F64 × F64) (M : List Hit) (h8 : 8 ≤ M.length) (hM : ∀ h ∈ M, Decoded h) (m : ℚ)
    (hm : IsMedian m (M.map Hit.tot)) (used : List Hit) (hu : used = M.filter fun h => m < (h.tot : ℚ)) :
    ∃ e, fastGaussianFit solve (F64.ofRat 1) M = .ok e ∧ e.nHits = M.length ∧
      ∀ p q ε : ℝ, |p| ≤ 2 ^ 11 → |q| ≤ 2 ^ 11 → ε ≤ 1 → (∀ v, IsBest v (samples m used) → v.a = 2 * p ∧ v.b = 2 * q) →
        SolvesWithin ε (solve (fitRows m used)) (samples m used) → EventAt ε p q e := by
  obtain ⟨m', used', e, hm', hu', -, he, hn, ⟨hx, hy⟩, -⟩ := c33_used_hits solve (F64.ofRat 1) M h8 hM
  have := median_unique hm' hm
  subst this
  have : used' = used := by rw [hu', hu]
  subst this
  have hrows : (used'.map fun h => (⟨F64.mul (F64.ofRat 1) (F64.ofInt h.x), F64.mul (F64.ofRat 1) (F64.ofInt h.y),
      .fin ((h.tot : ℚ) - m'), F64.ofInt (tofOf h)⟩ : GaussRow)) = fitRows m' used' := by
    unfold fitRows
    apply List.map_congr_left
    intro h hh
    have hd := hM h (by rw [hu] at hh; exact (List.mem_filter.mp hh).1)
    have one : F64.ofRat 1 = .fin 1 := by
      have := F64.ofRat_int (n := 1) (by norm_num)
      simpa using this
    have hmul : ∀ k : Int, |k| ≤ 2 ^ 53 → F64.mul (F64.ofRat 1) (F64.ofInt k) = .fin k := by
      intro k hk
      rw [one, F64.ofInt_exact hk]
      simp only [F64.mul, one_mul]
      exact F64.ofRat_int hk
    have hdx := hd.x
    have hdy := hd.y
    rw [hmul _ (by rw [abs_le]; omega), hmul _ (by rw [abs_le]; omega)]
  simp only [hrows] at hx hy
  refine ⟨e, he, hn, fun p q ε hp hq hε hbest ⟨v, a, b, hv, hs, ha, hb⟩ => ?_⟩
  obtain ⟨h1, h2⟩ := hbest v hv
  rw [h1] at ha
  rw [h2] at hb
  rw [hs] at hx hy
  obtain ⟨x, ex, lx⟩ := half_close ha hp hε
  obtain ⟨y, ey, ly⟩ := half_close hb hq hε
  exact ⟨x, y, by rw [hx, ex], by rw [hy, ey], lx, ly⟩

/-- C101, what holds: if the signals above the median lie on a Gaussian peak and determine a place, the event lies at the centre of the
peak.  Missing: peaks whose signals lie on a Gaussian before the median is subtracted (`c101_false_corner`). -/
theorem c101_gaussian_partial (solve : List GaussRow → F64 × F64) (M : List Hit) (h8 : 8 ≤ M.length) (hM : ∀ h ∈ M, Decoded h) (m : ℚ)
    (hm : IsMedian m (M.map Hit.tot)) (used : List Hit) (hu : used = M.filter fun h => m < (h.tot : ℚ)) (p q σ A ε : ℝ)
    (hp : |p| ≤ 2 ^ 11) (hq : |q| ≤ 2 ^ 11) (hε : ε ≤ 1) (hg : OnGaussian p q σ A (samples m used)) (hd : Determined (samples m used))
    (hs : SolvesWithin ε (solve (fitRows m used)) (samples m used)) :
    ∃ e, fastGaussianFit solve (F64.ofRat 1) M = .ok e ∧ e.nHits = M.length ∧ EventAt ε p q e := by
  obtain ⟨e, h1, h2, h3⟩ := fit_place solve M h8 hM m hm used hu
  exact ⟨e, h1, h2, h3 p q ε hp hq hε (fun v hv => hd v _ hv (gaussian_best hg)) hs⟩

/-- C101: if the hits above the median lie on a circle and determine a place, the event lies at the centre of the circle, whatever the
signals are. -/
theorem c101_circle (solve : List GaussRow → F64 × F64) (M : List Hit) (h8 : 8 ≤ M.length) (hM : ∀ h ∈ M, Decoded h) (m : ℚ)
    (hm : IsMedian m (M.map Hit.tot)) (used : List Hit) (hu : used = M.filter fun h => m < (h.tot : ℚ)) (p q r ε : ℝ)
    (hp : |p| ≤ 2 ^ 11) (hq : |q| ≤ 2 ^ 11) (hε : ε ≤ 1) (hg : OnCircle p q r (samples m used)) (hd : Determined (samples m used))
    (hs : SolvesWithin ε (solve (fitRows m used)) (samples m used)) :
    ∃ e, fastGaussianFit solve (F64.ofRat 1) M = .ok e ∧ e.nHits = M.length ∧ EventAt ε p q e := by
  obtain ⟨e, h1, h2, h3⟩ := fit_place solve M h8 hM m hm used hu
  exact ⟨e, h1, h2, h3 p q ε hp hq hε (fun v hv => hd v _ hv (circle_best hg)) hs⟩

/-- Which places a list of samples determines depends on its members only. -/
theorem determined_congr {S T : List Sample} (h : ∀ s, s ∈ S ↔ s ∈ T) : Determined S ↔ Determined T := by
  rw [c101_determined, c101_determined]
  simp only [h]

/-- Four samples in a square. -/
def block (x y t00 t10 t01 t11 : ℝ) : List Sample := [⟨x, y, t00⟩, ⟨x + 1, y, t10⟩, ⟨x, y + 1, t01⟩, ⟨x + 1, y + 1, t11⟩]

/-- Four samples in a square determine a place exactly if the products of opposite signals differ or all signals are equal. -/
theorem block_determined (x y t00 t10 t01 t11 : ℝ) (h00 : 0 < t00) (h10 : 0 < t10) (h01 : 0 < t01) (h11 : 0 < t11) :
    Determined (block x y t00 t10 t01 t11) ↔ t00 * t11 ≠ t10 * t01 ∨ (t10 = t00 ∧ t01 = t00) := by
  have hlog : Real.log t00 + Real.log t11 = Real.log t10 + Real.log t01 ↔ t00 * t11 = t10 * t01 := by
    rw [← Real.log_mul h00.ne' h11.ne', ← Real.log_mul h10.ne' h01.ne']
    constructor
    · intro h
      exact Real.log_injOn_pos (by positivity : 0 < t00 * t11) (by positivity : 0 < t10 * t01) h
    · intro h; rw [h]
  have hl10 : Real.log t10 = Real.log t00 ↔ t10 = t00 := ⟨fun h => Real.log_injOn_pos h10 h00 h, fun h => by rw [h]⟩
  have hl01 : Real.log t01 = Real.log t00 ↔ t01 = t00 := ⟨fun h => Real.log_injOn_pos h01 h00 h, fun h => by rw [h]⟩
  rw [c101_determined, block]
  simp only [List.forall_mem_cons, List.not_mem_nil, false_implies, implies_true, and_true, Coeffs.value]
  rw [Ne, ← hlog, ← hl10, ← hl01]
  generalize Real.log t00 = l00
  generalize Real.log t10 = l10
  generalize Real.log t01 = l01
  generalize Real.log t11 = l11
  constructor
  · intro h
    by_contra hn
    push Not at hn
    have := h ⟨l00 - l10, l00 - l01, 1, -((l00 - l10) * x + (l00 - l01) * y + l00)⟩
      ⟨by ring, by ring, by ring, by linear_combination hn.1⟩
    simp only at this
    exact hn.2 (by linarith [this.1]) (by linarith [this.2])
  · rintro h ⟨a, b, c, d⟩ ⟨e1, e2, e3, e4⟩
    simp only at *
    have hc : c * (l00 + l11 - (l10 + l01)) = 0 := by linear_combination e1 + e4 - e2 - e3
    rcases mul_eq_zero.mp hc with hc | hc
    · subst hc
      constructor
      · linear_combination e2 - e1
      · linear_combination e3 - e1
    · rcases h with h | ⟨h1, h2⟩
      · exact absurd (by linarith) h
      · subst h1 h2
        constructor
        · linear_combination e2 - e1
        · linear_combination e3 - e1

/-- C101: if the hits above the median are four in a square, the event lies in the middle of the square, whatever their signals are, unless
the products of opposite signals are equal; then (if the four are not all equal) the place is not determined. -/
theorem c101_block (solve : List GaussRow → F64 × F64) (M : List Hit) (h8 : 8 ≤ M.length) (hM : ∀ h ∈ M, Decoded h) (m : ℚ)
    (hm : IsMedian m (M.map Hit.tot)) (used : List Hit) (hu : used = M.filter fun h => m < (h.tot : ℚ)) (x y t00 t10 t01 t11 ε : ℝ)
    (h00 : 0 < t00) (h10 : 0 < t10) (h01 : 0 < t01) (h11 : 0 < t11)
    (hx : |x + 1 / 2| ≤ 2 ^ 11) (hy : |y + 1 / 2| ≤ 2 ^ 11) (hε : ε ≤ 1)
    (hb : ∀ s, s ∈ samples m used ↔ s ∈ block x y t00 t10 t01 t11) :
    (Determined (samples m used) ↔ t00 * t11 ≠ t10 * t01 ∨ (t10 = t00 ∧ t01 = t00)) ∧
    (t00 * t11 ≠ t10 * t01 ∨ (t10 = t00 ∧ t01 = t00) → SolvesWithin ε (solve (fitRows m used)) (samples m used) →
      ∃ e, fastGaussianFit solve (F64.ofRat 1) M = .ok e ∧ e.nHits = M.length ∧ EventAt ε (x + 1 / 2) (y + 1 / 2) e) := by
  have hd : Determined (samples m used) ↔ t00 * t11 ≠ t10 * t01 ∨ (t10 = t00 ∧ t01 = t00) := by
    rw [determined_congr hb, block_determined _ _ _ _ _ _ h00 h10 h01 h11]
  refine ⟨hd, fun h hs => c101_circle solve M h8 hM m hm used hu _ _ (Real.sqrt (1 / 2)) ε hx hy hε ?_ (hd.mpr h) hs⟩
  intro s hs
  rw [Real.sq_sqrt (by norm_num)]
  have := (hb s).mp hs
  simp only [block, List.mem_cons, List.not_mem_nil, or_false] at this
  rcases this with rfl | rfl | rfl | rfl <;> simp only <;> ring

/-! ## All events -/

/-- The events of clusters: those of at least eight hits, and of the minimal size, whose fitted place is not negative, in order; each is
the fit of its cluster. -/
def GaussEvents (solve : List GaussRow → F64 × F64) (minSize : Nat) (data : List Hit) (labels : List Int) (es : List Neutron) : Prop :=
  ∃ (k : Nat) (fits : Nat → Neutron), (∀ l : Int, l ∈ labels ↔ 0 ≤ l ∧ l < k) ∧
    (∀ l, l < k → fastGaussianFit solve (F64.ofRat 1) (members data labels l) = .ok (fits l)) ∧
    es = ((List.range k).filter fun l : Nat => 8 ≤ (members data labels l).length ∧ minSize ≤ (members data labels l).length ∧
      F64.le (F64.ofRat 0) (fits l).x = true ∧ F64.le (F64.ofRat 0) (fits l).y = true).map fits

theorem eventLoop_gauss {o : AbsObj} {solve : List GaussRow → F64 × F64} (data : List Hit) (hc : Consistent o) (hne : o.labels ≠ [])
    (hlen : o.labels.length = data.length) (fits : Nat → Neutron) (k : Nat) (hk : ∀ l : Int, l ∈ o.labels ↔ 0 ≤ l ∧ l < k)
    (hf : ∀ l, l < k → fastGaussianFit solve (F64.ofRat 1) (members data o.labels l) = .ok (fits l)) (fuel l : Nat)
    (hfuel : l + fuel = k) :
    o.eventLoop (fastGaussianFit solve (F64.ofRat 1)) data fuel l =
      .ok (((List.range' l fuel).filter fun l : Nat => 8 ≤ (members data o.labels l).length ∧
        o.params.minSize ≤ (members data o.labels l).length ∧
        F64.le (F64.ofRat 0) (fits l).x = true ∧ F64.le (F64.ofRat 0) (fits l).y = true).map fits) := by
  induction fuel generalizing l with
  | zero => rfl
  | succ fuel ih =>
    have hlk : (l : Int) ∈ o.labels := (hk l).mpr (by omega)
    have hl2 := (hc.labels _ hlk).2
    rw [Int.toNat_natCast] at hl2
    rw [AbsObj.eventLoop, hc.indices hne l hl2]
    have hg := gather_positions [] data o.labels l hlen.symm
    rw [List.nil_append] at hg
    simp only [List.length_nil] at hg
    simp only [bind, Res.bind, hg, List.range'_succ, ih (l + 1) (by omega), hf l (by omega)]
    by_cases hmin : (members data o.labels l).length < o.params.minSize
    · rw [if_pos hmin, List.filter_cons_of_neg (by simp only [decide_eq_true_eq, not_and]; omega)]
    · rw [if_neg hmin]
      by_cases hkeep : AbsObj.keepEvent (fits l) = true
      · have h8 := (fastGaussian_nHits (hf l (by omega)) hkeep).1
        rw [if_pos hkeep, List.filter_cons_of_pos]
        · rfl
        · unfold AbsObj.keepEvent at hkeep
          rw [Bool.and_eq_true] at hkeep
          simp only [decide_eq_true_eq]
          exact ⟨h8, by omega, hkeep⟩
      · rw [if_neg hkeep, List.filter_cons_of_neg]
        simp only [decide_eq_true_eq]
        rintro ⟨-, -, h1, h2⟩
        exact hkeep (by unfold AbsObj.keepEvent; rw [h1, h2]; rfl)

theorem fitWith_gauss {n : Nat} (hn : 0 < n) (solve : List GaussRow → F64 × F64) (o o' : AbsObj) (data : List Hit)
    (h : o.fitWith n data = .ok o') (hm : o.method = "fast_gaussian") (hd : ∀ h ∈ data, h.tof ≠ none) :
    ∃ es, o'.getEvents solve data = .ok es ∧ GaussEvents solve o.params.minSize data o'.labels es := by
  obtain ⟨hlen, ⟨k, hk⟩, -⟩ := fitWith_gapless hn o o' data h
  have hc := fitWith_consistent hn h
  have hpm := (fitWith_inv hn h).choose_spec.choose_spec.choose_spec.2
  have hfit : ∀ l : Nat, ∃ e, fastGaussianFit solve (F64.ofRat 1) (members data o'.labels l) = .ok e := by
    intro l
    rcases fastGaussianFit_ub solve (F64.ofRat 1) (members data o'.labels l) with h | ⟨-, x, hx, hn⟩
    · exact h
    · exact absurd hn (hd x (mem_members hx))
  choose fits hf using hfit
  unfold AbsObj.getEvents
  rw [if_neg (by simpa using hlen)]
  by_cases hnil : o'.labels = []
  · rw [if_pos hnil]
    have hk0 : k = 0 := by
      by_contra hne
      have := (hk 0).mpr (by omega)
      rw [hnil] at this
      simp at this
    subst hk0
    exact ⟨[], rfl, 0, fits, hk, fun l hl => hf l, rfl⟩
  · rw [if_neg hnil, hpm.2.1, hm]
    have ha : AbsObj.algorithm solve "fast_gaussian" = some (fastGaussianFit solve (F64.ofRat 1)) := by
      unfold AbsObj.algorithm; rw [if_neg (by decide), if_pos rfl]
    rw [ha]
    have hmax : (AbsObj.maxLabelOf o'.labels + 1).toNat = k := by
      have h1 := (hk _).mp (maxLabelOf_mem _ hnil)
      have h2 := maxLabelOf_ge o'.labels ((k : Int) - 1) ((hk _).mpr (by omega))
      omega
    rw [hmax]
    simp only [eventLoop_gauss data hc hnil hlen fits k hk (fun l _ => hf l) k 0 (by omega)]
    exact ⟨_, rfl, k, fits, hk, fun l _ => hf l, by rw [hpm.1, ← List.range_eq_range']⟩

/-- C101: with the Gaussian method both libraries return, in the order of the labels, exactly the fits of the clusters of at least eight
hits that do not lie at a negative place. -/
theorem c101_events (solve : List GaussRow → F64 × F64) (o o' : AbsObj) (data : List Hit) (hm : o.method = "fast_gaussian")
    (hd : ∀ h ∈ data, h.tof ≠ none) :
    (o.fit data = .ok o' → ∃ es, o'.getEvents solve data = .ok es ∧ GaussEvents solve o.params.minSize data o'.labels es) ∧
    (o.legacyFit data = .ok o' → data ≠ [] →
      ∃ es, o'.legacyEvents solve data = .ok es ∧ GaussEvents solve o.params.minSize data o'.labels es) := by
  refine ⟨fun h => fitWith_gauss (by decide) solve o o' data h hm hd, fun h hne => ?_⟩
  rw [legacyEvents_eq _ _ _ hne]
  exact fitWith_gauss (by decide) solve o o' data h hm hd

/-- C101 for the streaming program: `events_streamed.h5` holds exactly the fits of the clusters of at least eight hits of each batch. -/
theorem c101_stream (solve : List GaussRow → F64 × F64) (out : List (List Hit)) (hne : ∀ b ∈ out, b ≠ [])
    (ht : ∀ b ∈ out, ∀ h ∈ b, h.tof ≠ none ∧ h.spidertime.toNat < 2 ^ 48) :
    ∃ ess, processBatches solve out = .ok ess.flatten ∧ List.Forall₂ (fun b es => ∃ o : AbsObj,
      ((AbsObj.new ⟨F64.ofRat 5, 1, 75⟩).setMethod "fast_gaussian").legacyFit b = .ok o ∧ GaussEvents solve 1 b o.labels es) out ess := by
  induction out with
  | nil => exact ⟨[], rfl, .nil⟩
  | cons b out ih =>
    obtain ⟨ess, h3, h4⟩ := ih (fun c hc => hne c (by simp [hc])) (fun c hc => ht c (by simp [hc]))
    obtain ⟨o, ho⟩ := c69_returns ((AbsObj.new ⟨F64.ofRat 5, 1, 75⟩).setMethod "fast_gaussian") b
      (fun x hx => by have := (ht b (by simp) x hx).2; omega)
    obtain ⟨es, h1, h2⟩ := (c101_events solve _ o b rfl (fun x hx => (ht b (by simp) x hx).1)).2 ho (hne b (by simp))
    refine ⟨es :: ess, ?_, .cons ⟨o, ho, h2⟩ h4⟩
    unfold processBatches processBatch
    simp only [ho, h1, h3, bind, Res.bind]
    rfl

/-! ## Where the fit goes wrong -/

/-- A hit of a made-up neutron. -/
def fitHit (x y tot : Int) : Hit := { x := x, y := y, tot := tot, toa := 0, ftoa := 0, tof := some 5#32, spidertime := 100#64 }

/-- A neutron in the corner of the detector; its signals are 512 / 2^(x² + y²). -/
def cornerHits : List Hit :=
  [fitHit 0 0 512, fitHit 1 0 256, fitHit 0 1 256, fitHit 1 1 128, fitHit 2 0 32, fitHit 0 2 32, fitHit 2 1 16, fitHit 1 2 16, fitHit 2 2 2]

theorem cornerHits_decoded : ∀ h ∈ cornerHits, Decoded h := by
  intro h hh
  simp only [cornerHits, List.mem_cons, List.not_mem_nil, or_false] at hh
  rcases hh with rfl | rfl | rfl | rfl | rfl | rfl | rfl | rfl | rfl <;>
    exact ⟨by decide, by decide, by decide, 5#32, rfl, by decide⟩

theorem corner_median : IsMedian 32 (cornerHits.map Hit.tot) :=
  ⟨[2, 16, 16, 32, 32, 128, 256, 256, 512], by decide, by decide, 32, 32, rfl, rfl, by norm_num⟩

/-- C101 is false: a neutron in the corner of the detector whose nine signals lie exactly on a Gaussian peak around (0, 0) is put half a
pixel too far in both directions, however good the solver is. -/
theorem c101_false_corner : (∃ σ A, OnGaussian 0 0 σ A (samples 0 cornerHits)) ∧
    ∀ (solve : List GaussRow → F64 × F64) (ε : ℝ), ε ≤ 1 →
      SolvesWithin ε (solve (fitRows 32 (cornerHits.filter fun h => (32 : ℚ) < h.tot)))
        (samples 32 (cornerHits.filter fun h => (32 : ℚ) < h.tot)) →
      ∃ e, fastGaussianFit solve (F64.ofRat 1) cornerHits = .ok e ∧ EventAt ε (1 / 2) (1 / 2) e := by
  constructor
  · have hl : 0 < Real.log 2 := Real.log_pos (by norm_num)
    refine ⟨Real.sqrt (1 / (2 * Real.log 2)), 512, Real.sqrt_pos.mpr (by positivity), by norm_num, ?_⟩
    have key : ∀ (n : ℕ), (512 : ℝ) * Real.exp (-(n : ℝ) / (2 * Real.sqrt (1 / (2 * Real.log 2)) ^ 2)) = 512 / 2 ^ n := by
      intro n
      rw [Real.sq_sqrt (by positivity)]
      have : -(n : ℝ) / (2 * (1 / (2 * Real.log 2))) = -(n * Real.log 2) := by field_simp
      rw [this, Real.exp_neg, Real.exp_nat_mul, Real.exp_log (by norm_num)]
      rfl
    intro s hs
    simp only [samples, cornerHits, List.map_cons, List.map_nil, fitHit, List.mem_cons, List.not_mem_nil, or_false] at hs
    have k0 := key 0
    have k1 := key 1
    have k2 := key 2
    have k4 := key 4
    have k5 := key 5
    have k8 := key 8
    norm_num at k0 k1 k2 k4 k5 k8
    rcases hs with rfl | rfl | rfl | rfl | rfl | rfl | rfl | rfl | rfl <;> norm_num <;> linarith
  · intro solve ε hε hs
    have hu : (cornerHits.filter fun h => (32 : ℚ) < h.tot) = [fitHit 0 0 512, fitHit 1 0 256, fitHit 0 1 256, fitHit 1 1 128] := by
      decide +kernel
    have := (c101_block solve cornerHits (by decide) cornerHits_decoded 32 corner_median _ rfl 0 0 480 224 224 96 ε (by norm_num)
      (by norm_num) (by norm_num) (by norm_num) (by norm_num [abs_le]) (by norm_num [abs_le]) hε (by
        intro s
        rw [hu]
        simp only [samples, List.map_cons, List.map_nil, fitHit, block]
        norm_num)).2 (Or.inl (by norm_num)) hs
    obtain ⟨e, h1, -, h2⟩ := this
    exact ⟨e, h1, by simpa using h2⟩

/-- Twelve hits; the four with the greatest signals lie on a circle around (10, 10). -/
def arcHits : List Hit :=
  [fitHit 15 10 100, fitHit 15 11 10, fitHit 15 12 10, fitHit 14 12 10, fitHit 14 13 90, fitHit 13 14 70, fitHit 13 13 10, fitHit 13 15 10,
    fitHit 12 15 10, fitHit 11 15 10, fitHit 12 14 10, fitHit 10 15 50]

theorem arcHits_decoded : ∀ h ∈ arcHits, Decoded h := by
  intro h hh
  simp only [arcHits, List.mem_cons, List.not_mem_nil, or_false] at hh
  rcases hh with rfl | rfl | rfl | rfl | rfl | rfl | rfl | rfl | rfl | rfl | rfl | rfl <;>
    exact ⟨by decide, by decide, by decide, 5#32, rfl, by decide⟩

theorem arc_median : IsMedian 10 (arcHits.map Hit.tot) :=
  ⟨[10, 10, 10, 10, 10, 10, 10, 10, 50, 70, 90, 100], by decide, by decide, 10, 10, rfl, rfl, by norm_num⟩

/-- The comment in `SophireadLib/src/fastgaussian.cpp` that the fit is within one pixel of the centroid for more than ten hits is false:
twelve hits that form one cluster, and an event more than four pixels from each of them, however good the solver is. -/
theorem c101_false_far : (∃ o, (AbsObj.new ⟨.fin 5, 1, 75⟩).legacyFit arcHits = .ok o ∧ o.labels = List.replicate 12 0) ∧
    (∀ h ∈ arcHits, 4 ^ 2 < (h.x - 10) ^ 2 + (h.y - 10) ^ 2) ∧
    ∀ (solve : List GaussRow → F64 × F64) (ε : ℝ), ε ≤ 1 →
      SolvesWithin ε (solve (fitRows 10 (arcHits.filter fun h => (10 : ℚ) < h.tot)))
        (samples 10 (arcHits.filter fun h => (10 : ℚ) < h.tot)) →
      ∃ e, fastGaussianFit solve (F64.ofRat 1) arcHits = .ok e ∧ EventAt ε 10 10 e := by
  refine ⟨?_, by decide, ?_⟩
  · obtain ⟨o, h⟩ := c69_returns (AbsObj.new ⟨.fin 5, 1, 75⟩) arcHits (by decide)
    refine ⟨o, h, ?_⟩
    have e : ((AbsObj.new ⟨.fin 5, 1, 75⟩).legacyFit arcHits).bind (fun o => .ok o.labels) = .ok (List.replicate 12 0) := by
      decide +kernel
    rw [h] at e
    simpa [Res.bind] using e
  · intro solve ε hε hs
    have hu : (arcHits.filter fun h => (10 : ℚ) < h.tot) = [fitHit 15 10 100, fitHit 14 13 90, fitHit 13 14 70, fitHit 10 15 50] := by
      decide +kernel
    have hsm : samples 10 (arcHits.filter fun h => (10 : ℚ) < h.tot) = [⟨15, 10, 90⟩, ⟨14, 13, 80⟩, ⟨13, 14, 60⟩, ⟨10, 15, 40⟩] := by
      rw [hu]
      simp only [samples, List.map_cons, List.map_nil, fitHit]
      norm_num
    have hd : Determined (samples 10 (arcHits.filter fun h => (10 : ℚ) < h.tot)) := by
      rw [hsm, c101_determined]
      simp only [List.forall_mem_cons, List.not_mem_nil, false_implies, implies_true, and_true, Coeffs.value]
      rintro ⟨a, b, c, d⟩ ⟨e1, e2, e3, e4⟩
      simp only at *
      have hne : Real.log 90 - 5 * Real.log 80 + 5 * Real.log 60 - Real.log 40 ≠ 0 := by
        intro h
        have h1 : Real.log (90 * 60 ^ 5) = Real.log (80 ^ 5 * 40) := by
          rw [Real.log_mul (by norm_num) (by norm_num), Real.log_mul (by norm_num) (by norm_num), Real.log_pow, Real.log_pow]
          push_cast
          linarith
        have h2 := Real.log_injOn_pos (by norm_num : (0 : ℝ) < 90 * 60 ^ 5) (by norm_num : (0 : ℝ) < 80 ^ 5 * 40) h1
        norm_num at h2
      have hc : c * (Real.log 90 - 5 * Real.log 80 + 5 * Real.log 60 - Real.log 40) = 0 := by
        linear_combination e1 - 5 * e2 + 5 * e3 - e4
      have hc0 : c = 0 := (mul_eq_zero.mp hc).resolve_right hne
      subst hc0
      constructor <;> linarith
    obtain ⟨e, h1, -, h2⟩ := c101_circle solve arcHits (by decide) arcHits_decoded 10 arc_median _ rfl 10 10 5 ε (by norm_num [abs_le])
      (by norm_num [abs_le]) hε (by
        intro s hs'
        rw [hsm] at hs'
        simp only [List.mem_cons, List.not_mem_nil, or_false] at hs'
        rcases hs' with rfl | rfl | rfl | rfl <;> norm_num) hd hs
    exact ⟨e, h1, h2⟩

/-! ## The hypotheses -/

/-- Eleven hits; those above the median lie on the peak 64 / 2^(x² + y²) around (20, 20). -/
def peakHits : List Hit :=
  [fitHit 20 20 74, fitHit 19 20 42, fitHit 21 20 42, fitHit 20 19 42, fitHit 20 21 42, fitHit 19 19 10, fitHit 19 21 10, fitHit 21 19 10,
    fitHit 21 21 10, fitHit 22 20 10, fitHit 20 22 10]

theorem peak_samples : samples 10 (peakHits.filter fun h => (10 : ℚ) < h.tot) =
    [⟨20, 20, 64⟩, ⟨19, 20, 32⟩, ⟨21, 20, 32⟩, ⟨20, 19, 32⟩, ⟨20, 21, 32⟩] := by
  have hu : (peakHits.filter fun h => (10 : ℚ) < h.tot) =
      [fitHit 20 20 74, fitHit 19 20 42, fitHit 21 20 42, fitHit 20 19 42, fitHit 20 21 42] := by decide +kernel
  rw [hu]
  simp only [samples, List.map_cons, List.map_nil, fitHit]
  norm_num

theorem peak_determined : Determined (samples 10 (peakHits.filter fun h => (10 : ℚ) < h.tot)) := by
  rw [peak_samples, c101_determined]
  simp only [List.forall_mem_cons, List.not_mem_nil, false_implies, implies_true, and_true, Coeffs.value]
  rintro ⟨a, b, c, d⟩ ⟨e1, e2, e3, e4, e5⟩
  constructor <;> linarith

theorem peak_gaussian : OnGaussian 20 20 (Real.sqrt (1 / (2 * Real.log 2))) 64
    (samples 10 (peakHits.filter fun h => (10 : ℚ) < h.tot)) := by
  have hl : 0 < Real.log 2 := Real.log_pos (by norm_num)
  refine ⟨Real.sqrt_pos.mpr (by positivity), by norm_num, ?_⟩
  have key : ∀ (n : ℕ), (64 : ℝ) * Real.exp (-(n : ℝ) / (2 * Real.sqrt (1 / (2 * Real.log 2)) ^ 2)) = 64 / 2 ^ n := by
    intro n
    rw [Real.sq_sqrt (by positivity)]
    have : -(n : ℝ) / (2 * (1 / (2 * Real.log 2))) = -(n * Real.log 2) := by field_simp
    rw [this, Real.exp_neg, Real.exp_nat_mul, Real.exp_log (by norm_num)]
    rfl
  intro s hs
  rw [peak_samples] at hs
  simp only [List.mem_cons, List.not_mem_nil, or_false] at hs
  have k0 := key 0
  have k1 := key 1
  norm_num at k0 k1
  rcases hs with rfl | rfl | rfl | rfl | rfl <;> norm_num <;> linarith

/-- Of `c101_gaussian_partial`, and what follows from it. -/
example : 8 ≤ peakHits.length ∧ (∀ h ∈ peakHits, Decoded h) ∧ IsMedian 10 (peakHits.map Hit.tot) ∧
    SolvesWithin 0 (.fin 40, .fin 40) (samples 10 (peakHits.filter fun h => (10 : ℚ) < h.tot)) ∧
    ∃ e, fastGaussianFit (fun _ => (.fin 40, .fin 40)) (F64.ofRat 1) peakHits = .ok e ∧ e.nHits = 11 ∧ EventAt 0 20 20 e := by
  have hd : ∀ h ∈ peakHits, Decoded h := by
    intro h hh
    simp only [peakHits, List.mem_cons, List.not_mem_nil, or_false] at hh
    rcases hh with rfl | rfl | rfl | rfl | rfl | rfl | rfl | rfl | rfl | rfl | rfl <;>
      exact ⟨by decide, by decide, by decide, 5#32, rfl, by decide⟩
  have hm : IsMedian 10 (peakHits.map Hit.tot) :=
    ⟨[10, 10, 10, 10, 10, 10, 42, 42, 42, 42, 74], by decide, by decide, 10, 10, rfl, rfl, by norm_num⟩
  have hs : SolvesWithin 0 (.fin 40, .fin 40) (samples 10 (peakHits.filter fun h => (10 : ℚ) < h.tot)) :=
    ⟨_, 40, 40, gaussian_best peak_gaussian, rfl, by norm_num, by norm_num⟩
  exact ⟨by decide, hd, hm, hs, c101_gaussian_partial _ _ (by decide) hd 10 hm _ rfl 20 20 _ _ 0 (by norm_num [abs_le])
    (by norm_num [abs_le]) (by norm_num) peak_gaussian peak_determined hs⟩

/-- Of `c101_mirror` and `c101_row`. -/
example : ((samples 10 (peakHits.filter fun h => (10 : ℚ) < h.tot)).map (Sample.mirror 20)).Perm
      (samples 10 (peakHits.filter fun h => (10 : ℚ) < h.tot)) ∧
    ∀ s ∈ [(⟨1, 7, 3⟩ : Sample), ⟨2, 7, 9⟩, ⟨3, 7, 5⟩, ⟨4, 7, 2⟩], s.y = 7 := by
  refine ⟨?_, by simp⟩
  rw [peak_samples]
  simp only [List.map_cons, List.map_nil, Sample.mirror]
  norm_num
  exact .swap _ _ _

/-- A solver as in `c101_false_corner`, and in `c101_circle` and `c101_block`. -/
example : SolvesWithin 0 (.fin 1, .fin 1) (samples 32 (cornerHits.filter fun h => (32 : ℚ) < h.tot)) := by
  have hu : (cornerHits.filter fun h => (32 : ℚ) < h.tot) = [fitHit 0 0 512, fitHit 1 0 256, fitHit 0 1 256, fitHit 1 1 128] := by
    decide +kernel
  refine ⟨_, 1, 1, circle_best (p := 1 / 2) (q := 1 / 2) (r := Real.sqrt (1 / 2)) ?_, rfl, by norm_num, by norm_num⟩
  intro s hs
  rw [hu] at hs
  rw [Real.sq_sqrt (by norm_num)]
  simp only [samples, List.map_cons, List.map_nil, fitHit, List.mem_cons, List.not_mem_nil, or_false] at hs
  rcases hs with rfl | rfl | rfl | rfl <;> norm_num

/-- The batches of the hypotheses of `c101_stream`. -/
example : (∀ b ∈ [peakHits, arcHits], b ≠ []) ∧
    ∀ b ∈ [peakHits, arcHits], ∀ h ∈ b, h.tof ≠ none ∧ h.spidertime.toNat < 2 ^ 48 := by decide +kernel

/-- The hypotheses of `c101_events`. -/
example : ∃ o', ((AbsObj.new ⟨.fin 5, 1, 75⟩).setMethod "fast_gaussian").legacyFit arcHits = .ok o' :=
  c69_returns _ arcHits (by decide)

end Verif.Props
