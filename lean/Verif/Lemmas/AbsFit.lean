import Verif.Lemmas.Abs
import Verif.Lemmas.F64

/-! # The loops of `ABS::fit`, and what accepting a hit means -/

namespace Verif

open Verif.Spec

theorem fitLoop_inv {n : Nat} {p : AbsParams} (hs done : List Hit) (ls tail : List Int) (k : Nat) (st st' : FitState)
    (inv : FitInv n p done ls k st.slots st.maxLabel) (hlab : st.labels = ls ++ tail)
    (htail : hs.length ≤ tail.length) (hok : fitLoop p done.length hs st = .ok st') :
    ∃ ls2 k', st'.labels = ls ++ ls2 ++ tail.drop hs.length ∧ ls2.length = hs.length ∧
      FitInv n p (done ++ hs) (ls ++ ls2) k' st'.slots st'.maxLabel := by
  induction hs generalizing done ls tail k st with
  | nil =>
    simp only [fitLoop, Res.ok.injEq] at hok
    subst hok
    exact ⟨[], k, by simp [hlab], rfl, by simpa using inv⟩
  | cons h hs ih =>
    simp only [fitLoop, bind, Res.bind] at hok
    cases hstep : fitStep p done.length h st with
    | throws e => rw [hstep] at hok; simp at hok
    | ub u => rw [hstep] at hok; simp at hok
    | ok st1 =>
      rw [hstep] at hok
      obtain ⟨l, k', hl, inv', _⟩ := inv.step hstep
      cases tail with
      | nil => simp at htail
      | cons a tail =>
        have hset : st1.labels = (ls ++ [l]) ++ tail := by
          rw [hl, hlab, inv.len, List.set_append_right _ _ (Nat.le_refl _), Nat.sub_self]
          simp
        obtain ⟨ls2, k2, e1, e2, e3⟩ := ih (done ++ [h]) (ls ++ [l]) tail k' st1 inv' hset
          (by simpa using htail) (by simpa using hok)
        refine ⟨l :: ls2, k2, ?_, by simp [e2], ?_⟩
        · rw [e1]; simp
        · simpa using e3

theorem fitLoop_ok (p : AbsParams) (i : Nat) (hs : List Hit) (st : FitState) :
    (∃ r, fitLoop p i hs st = .ok r) ∨
      (fitLoop p i hs st = .ub .floatToInt ∧ ∃ h ∈ hs, h.spidertimeNs.toU64? = none) := by
  induction hs generalizing i st with
  | nil => left; exact ⟨st, rfl⟩
  | cons h hs ih =>
    simp only [fitLoop, bind, Res.bind]
    rcases fitStep_ok p i h st with ⟨r, hr⟩ | ⟨hr, hn⟩
    · rw [hr]
      rcases ih (i + 1) r with ⟨r', hr'⟩ | ⟨hr', g, hg, hn⟩
      · left; exact ⟨r', hr'⟩
      · right; exact ⟨hr', g, List.mem_cons_of_mem _ hg, hn⟩
    · right; rw [hr]; exact ⟨rfl, h, List.mem_cons_self, hn⟩

theorem fitLoop_append (p : AbsParams) (i : Nat) (hs gs : List Hit) (st : FitState) :
    fitLoop p i (hs ++ gs) st = (fitLoop p i hs st).bind fun st' => fitLoop p (i + hs.length) gs st' := by
  induction hs generalizing i st with
  | nil => rfl
  | cons h hs ih =>
    simp only [List.cons_append, fitLoop, bind]
    cases fitStep p i h st with
    | ok r =>
      simp only [Res.bind]
      rw [ih, List.length_cons, show i + (hs.length + 1) = i + 1 + hs.length by omega]
      rfl
    | throws e => rfl
    | ub u => rfl

/-! ### Index lists -/

/-- Positions of label `l`, the first position being `i`. -/
def positions : Nat → List Int → Int → List Nat
  | _, [], _ => []
  | i, a :: ls, l => (if a = l then [i] else []) ++ positions (i + 1) ls l

theorem indexLoop_spec (i : Nat) (ls : List Int) (acc : List (List Nat))
    (h : ∀ l ∈ ls, 0 ≤ l ∧ l.toNat < acc.length) :
    ∃ r, indexLoop i ls acc = .ok r ∧ r.length = acc.length ∧
      ∀ l : Nat, l < acc.length → r[l]? = some (acc.getD l [] ++ positions i ls l) := by
  induction ls generalizing i acc with
  | nil =>
    refine ⟨acc, rfl, rfl, fun l hl => ?_⟩
    rw [List.getElem?_eq_getElem hl]
    simp [positions, List.getD, hl]
  | cons a ls ih =>
    have ha := h a (by simp)
    rw [indexLoop, if_pos ha]
    obtain ⟨r, e1, e2, e3⟩ := ih (i + 1) (acc.set a.toNat (acc.getD a.toNat [] ++ [i]))
      (fun l hl => by rw [List.length_set]; exact h l (by simp [hl]))
    rw [List.length_set] at e2 e3
    refine ⟨r, e1, e2, fun l hl => ?_⟩
    rw [e3 l hl]
    congr 1
    rw [positions]
    by_cases e : a = (l : Int)
    · subst e
      rw [if_pos rfl, Int.toNat_natCast]
      simp [List.getD, hl]
    · have hne : a.toNat ≠ l := by omega
      rw [if_neg e, List.nil_append]
      congr 1
      simp [List.getD, List.getElem?_set_ne hne]

theorem gather_positions (pre data : List Hit) (ls : List Int) (l : Int) (h : data.length = ls.length) :
    AbsObj.gather (pre ++ data) (positions pre.length ls l) = .ok (members data ls l) := by
  induction data generalizing pre ls with
  | nil =>
    have : ls = [] := List.eq_nil_of_length_eq_zero (by simpa using h.symm)
    subst this
    rfl
  | cons d data ih =>
    cases ls with
    | nil => simp at h
    | cons a ls =>
      have hrec := ih (pre ++ [d]) ls (by simpa using h)
      rw [List.append_assoc, List.singleton_append, List.length_append, List.length_singleton] at hrec
      rw [positions]
      by_cases e : a = l
      · rw [if_pos e, List.singleton_append, AbsObj.gather]
        have : (pre ++ d :: data)[pre.length]? = some d := by simp
        rw [this]
        simp only [bind, Res.bind]
        rw [hrec]
        simp [members, e]
      · rw [if_neg e, List.nil_append, hrec]
        simp [members, e]

/-! ### `fit` -/

theorem fitWith_inv {n : Nat} (hn : 0 < n) {o o' : AbsObj} {data : List Hit} (h : o.fitWith n data = .ok o') :
    ∃ k slots mx, FitInv n o.params data o'.labels k slots mx ∧
      o'.params = o.params ∧ o'.method = o.method ∧ o'.indices.length = (mx + 1).toNat ∧
      ∀ l : Nat, l < o'.indices.length → o'.indices[l]? = some (positions 0 o'.labels l) := by
  unfold AbsObj.fitWith at h
  simp only [bind, Res.bind] at h
  cases hf : fitLoop o.params 0 data ⟨initSlots n, n, AbsObj.resized o.labels data.length⟩ with
  | throws e => rw [hf] at h; simp at h
  | ub u => rw [hf] at h; simp at h
  | ok st =>
    rw [hf] at h
    have hres : AbsObj.resized o.labels data.length = [] ++ List.replicate data.length (-1) := by
      simp [AbsObj.resized]
    obtain ⟨ls2, k, e1, e2, inv⟩ := fitLoop_inv data [] [] (List.replicate data.length (-1)) 0
      ⟨initSlots n, n, AbsObj.resized o.labels data.length⟩ st (FitInv.init hn o.params) hres (by simp) hf
    have e1' : st.labels = ls2 := by simpa using e1
    simp only [List.nil_append] at inv
    have hmx : 0 ≤ st.maxLabel ∧ (k : Int) ≤ st.maxLabel := by rw [inv.max]; omega
    obtain ⟨r, r1, r2, r3⟩ := indexLoop_spec 0 st.labels (List.replicate (st.maxLabel + 1).toNat [])
      (fun l hl => by
        rw [e1'] at hl
        have := inv.lt l hl
        rw [List.length_replicate]; omega)
    have hidx : (o.indices.take 0 ++ List.replicate (st.maxLabel + 1).toNat ([] : List Nat)) =
        List.replicate (st.maxLabel + 1).toNat [] := by simp
    simp only at h
    rw [hidx, r1] at h
    simp only [Res.ok.injEq] at h
    subst h
    rw [List.length_replicate] at r2
    refine ⟨k, st.slots, st.maxLabel, by simpa [e1'] using inv, rfl, rfl, r2, fun l hl => ?_⟩
    simp only at hl ⊢
    rw [r3 l (by rw [List.length_replicate]; omega)]
    congr 1
    rw [r2] at hl
    simp [List.getD, hl]

theorem fit_inv {o o' : AbsObj} {data : List Hit} (h : o.fit data = .ok o') :
    ∃ k slots mx, FitInv numClusters o.params data o'.labels k slots mx ∧
      o'.params = o.params ∧ o'.method = o.method ∧ o'.indices.length = (mx + 1).toNat ∧
      ∀ l : Nat, l < o'.indices.length → o'.indices[l]? = some (positions 0 o'.labels l) :=
  fitWith_inv (by decide) h

theorem fitWith_ok {n : Nat} (hn : 0 < n) (o : AbsObj) (data : List Hit) :
    (∃ o', o.fitWith n data = .ok o') ∨
      (o.fitWith n data = .ub .floatToInt ∧ ∃ h ∈ data, h.spidertimeNs.toU64? = none) := by
  unfold AbsObj.fitWith
  simp only [bind, Res.bind]
  rcases fitLoop_ok o.params 0 data ⟨initSlots n, n, AbsObj.resized o.labels data.length⟩ with
    ⟨st, hf⟩ | ⟨hf, hn⟩
  · left
    rw [hf]
    have hres : AbsObj.resized o.labels data.length = [] ++ List.replicate data.length (-1) := by
      simp [AbsObj.resized]
    obtain ⟨ls2, k, e1, e2, inv⟩ := fitLoop_inv data [] [] (List.replicate data.length (-1)) 0
      ⟨initSlots n, n, AbsObj.resized o.labels data.length⟩ st (FitInv.init hn o.params) hres (by simp) hf
    have e1' : st.labels = ls2 := by simpa using e1
    simp only [List.nil_append] at inv
    have hmx : 0 ≤ st.maxLabel ∧ (k : Int) ≤ st.maxLabel := by rw [inv.max]; omega
    obtain ⟨r, r1, r2, r3⟩ := indexLoop_spec 0 st.labels (List.replicate (st.maxLabel + 1).toNat [])
      (fun l hl => by
        rw [e1'] at hl
        have := inv.lt l hl
        rw [List.length_replicate]; omega)
    have hidx : (o.indices.take 0 ++ List.replicate (st.maxLabel + 1).toNat ([] : List Nat)) =
        List.replicate (st.maxLabel + 1).toNat [] := by simp
    simp only
    rw [hidx, r1]
    exact ⟨_, rfl⟩
  · right
    rw [hf]
    exact ⟨rfl, hn⟩

/-- `fit` can only fail in the conversion of a hit's time. -/
theorem fit_ok (o : AbsObj) (data : List Hit) :
    (∃ o', o.fit data = .ok o') ∨
      (o.fit data = .ub .floatToInt ∧ ∃ h ∈ data, h.spidertimeNs.toU64? = none) :=
  fitWith_ok (by decide) o data

/-! ### Times -/

theorem spidertimeNs_exact (h : Hit) (ht : h.spidertime.toNat < 2 ^ 48) :
    h.spidertimeNs = .fin ((arrivalNs h : Int) : ℚ) := by
  unfold Hit.spidertimeNs arrivalNs
  rw [F64.ofInt_exact (by rw [abs_of_nonneg (by omega)]; omega),
    show (25 : ℚ) = ((25 : ℤ) : ℚ) by norm_num, F64.ofRat_int (by norm_num)]
  show F64.ofRat _ = _
  have e : (((h.spidertime.toNat : ℤ) : ℚ)) * ((25 : ℤ) : ℚ) = ((25 * (h.spidertime.toNat : ℤ) : ℤ) : ℚ) := by
    push_cast; ring
  rw [e, F64.ofRat_int]
  rw [abs_of_nonneg (by omega)]; omega

theorem arrivalNs_nonneg (h : Hit) : 0 ≤ arrivalNs h := by unfold arrivalNs; omega

theorem arrivalNs_lt (h : Hit) (ht : h.spidertime.toNat < 2 ^ 48) : arrivalNs h < 2 ^ 53 := by
  unfold arrivalNs; omega

theorem truncQ_int (n : ℤ) : F64.truncQ (n : ℚ) = n := by
  unfold F64.truncQ; split_ifs <;> simp

theorem toU64_time (h : Hit) (ht : h.spidertime.toNat < 2 ^ 48) :
    h.spidertimeNs.toU64? = some (arrivalNs h).toNat := by
  rw [spidertimeNs_exact h ht]
  unfold F64.toU64?
  have h0 := arrivalNs_nonneg h
  have h1 := arrivalNs_lt h ht
  simp only [truncQ_int]
  rw [if_pos ⟨h0, by omega⟩]

theorem spidertimeNs_rnd (h : Hit) :
    h.spidertimeNs = .fin (rndQ (rndQ ((h.spidertime.toNat : ℕ) : ℚ) * 25)) := by
  unfold Hit.spidertimeNs
  have ht : h.spidertime.toNat < 2 ^ 64 := h.spidertime.isLt
  generalize h.spidertime.toNat = n at ht
  have hnq : (0 : ℚ) ≤ (n : ℚ) ∧ (n : ℚ) ≤ 2 ^ 64 := ⟨by positivity, by exact_mod_cast ht.le⟩
  have hbig : ∀ q : ℚ, 0 ≤ q → q ≤ 2 ^ 69 → |q| ≤ (2 : ℚ) ^ (1000 : ℤ) := by
    intro q h0 h1
    rw [abs_of_nonneg h0]
    refine h1.trans ?_
    rw [show (1000 : ℤ) = ((1000 : ℕ) : ℤ) from rfl, zpow_natCast]
    exact pow_le_pow_right₀ (by norm_num) (by norm_num)
  have e1 : F64.ofInt (n : ℤ) = .fin (rndQ (n : ℚ)) := by
    unfold F64.ofInt
    rw [Int.cast_natCast]
    exact F64.ofRat_fin (hbig _ hnq.1 (hnq.2.trans (by norm_num)))
  have g64 : rndQ ((2 : ℚ) ^ 64) = 2 ^ 64 :=
    rndQ_of_grid 1 64 (by norm_num) (by norm_num) (by norm_num)
  have b1 : rndQ (n : ℚ) ≤ 2 ^ 64 := by rw [← g64]; exact rndQ_mono hnq.2
  have b0 : 0 ≤ rndQ (n : ℚ) := rndQ_nonneg hnq.1
  have e25 : F64.ofRat 25 = .fin 25 := by
    have := F64.ofRat_int (n := 25) (by norm_num); simpa using this
  rw [e1, e25]
  show F64.ofRat _ = _
  apply F64.ofRat_fin
  apply hbig _ (by positivity)
  calc rndQ (n : ℚ) * 25 ≤ 2 ^ 64 * 25 := by linarith
    _ ≤ 2 ^ 69 := by norm_num

/-- The conversion of the arrival time to an integer is defined up to 737869762948382016 clock ticks (584 years) and not
beyond. -/
theorem toU64_none_iff (h : Hit) : h.spidertimeNs.toU64? = none ↔ 737869762948382016 < h.spidertime.toNat := by
  rw [spidertimeNs_rnd]
  generalize h.spidertime.toNat = n
  have c0 : 0 ≤ rndQ (rndQ (n : ℚ) * 25) := rndQ_nonneg (by have := rndQ_nonneg (q := (n : ℚ)) (by positivity); positivity)
  have lo : n ≤ 737869762948382016 → rndQ (rndQ (n : ℚ) * 25) ≤ 18446744073709549568 := by
    intro hn
    have hq : (n : ℚ) ≤ 737869762948382016 := by exact_mod_cast hn
    have := rndQ_mono hq
    have e : rndQ (rndQ (737869762948382016 : ℚ) * 25) = 18446744073709549568 := by decide +kernel
    rw [← e]
    exact rndQ_mono (by linarith)
  have hi : 737869762948382017 ≤ n → 18446744073709551616 ≤ rndQ (rndQ (n : ℚ) * 25) := by
    intro hn
    have hq : (737869762948382017 : ℚ) ≤ n := by exact_mod_cast hn
    have := rndQ_mono hq
    have e : rndQ (rndQ (737869762948382017 : ℚ) * 25) = 18446744073709551616 := by decide +kernel
    rw [← e]
    exact rndQ_mono (by linarith)
  generalize rndQ (rndQ (n : ℚ) * 25) = q at c0 lo hi
  have et : F64.truncQ q = ⌊q⌋ := by unfold F64.truncQ; rw [if_pos c0]
  unfold F64.toU64?
  simp only [et]
  have f0 : 0 ≤ ⌊q⌋ := Int.floor_nonneg.mpr c0
  by_cases hn : n ≤ 737869762948382016
  · have f1 : ⌊q⌋ < 2 ^ 64 := by
      rw [Int.floor_lt]
      refine lt_of_le_of_lt (lo hn) ?_
      norm_num
    rw [if_pos ⟨f0, f1⟩]
    simp only [reduceCtorEq, false_iff, not_lt]
    exact hn
  · have f1 : ¬ ⌊q⌋ < 2 ^ 64 := by
      rw [not_lt, Int.le_floor]
      refine le_trans ?_ (hi (by omega))
      norm_num
    rw [if_neg (fun h => f1 h.2)]
    simp only [true_iff]
    omega

/-- Comparing an integer below 2^53 with a rounded 64-bit integer compares with the integer itself. -/
theorem le_ofInt_iff (d : ℤ) (n : ℕ) (hd : |d| ≤ 2 ^ 53) (hn : n < 2 ^ 64) :
    F64.le (.fin (d : ℚ)) (F64.ofInt n) = true ↔ d ≤ n := by
  have hfin : F64.ofInt (n : ℤ) = .fin (rndQ ((n : ℤ) : ℚ)) := by
    unfold F64.ofInt
    apply F64.ofRat_fin
    rw [abs_of_nonneg (by positivity)]
    have h1 : (((n : ℤ)) : ℚ) ≤ 2 ^ 64 := by exact_mod_cast hn.le
    exact h1.trans (pow_le_pow_right₀ (by norm_num) (by norm_num))
  rw [hfin]
  simp only [F64.le, decide_eq_true_eq]
  constructor
  · intro h
    by_contra hlt
    have hlt' : (n : ℤ) < d := by omega
    have hn53 : |(n : ℤ)| ≤ 2 ^ 53 := by
      rw [abs_of_nonneg (by omega)]; have := (abs_le.mp hd).2; omega
    rw [rndQ_int hn53] at h
    have : d ≤ (n : ℤ) := by exact_mod_cast h
    omega
  · intro h
    have h1 : ((d : ℤ) : ℚ) ≤ ((n : ℤ) : ℚ) := by exact_mod_cast h
    have h2 := rndQ_mono h1
    rwa [rndQ_int hd] at h2

theorem accepts_time {p : AbsParams} {M : List Hit} {s : Slot} {h g : Hit} (hs : SlotOf M s)
    (hg : M.head? = some g) (ht : h.spidertime.toNat < 2 ^ 48) (htg : g.spidertime.toNat < 2 ^ 48)
    (hr : p.range < 2 ^ 64) :
    F64.le (F64.abs (F64.sub h.spidertimeNs (F64.ofInt s.time))) (F64.ofInt p.range) = true ↔
      |arrivalNs h - arrivalNs g| ≤ p.range := by
  have htime : s.time = (arrivalNs g).toNat := by
    have := hs.time g hg
    rw [toU64_time g htg] at this
    simpa using this.symm
  have h0 := arrivalNs_nonneg h
  have h1 := arrivalNs_lt h ht
  have g0 := arrivalNs_nonneg g
  have g1 := arrivalNs_lt g htg
  have hst : (s.time : ℤ) = arrivalNs g := by rw [htime]; omega
  rw [spidertimeNs_exact h ht, hst, F64.ofInt_exact (by rw [abs_of_nonneg g0]; omega)]
  have hsub : F64.sub (.fin ((arrivalNs h : ℤ) : ℚ)) (.fin ((arrivalNs g : ℤ) : ℚ)) =
      .fin (((arrivalNs h - arrivalNs g : ℤ)) : ℚ) := by
    show F64.ofRat _ = _
    have e : ((arrivalNs h : ℤ) : ℚ) + -((arrivalNs g : ℤ) : ℚ) = ((arrivalNs h - arrivalNs g : ℤ) : ℚ) := by
      push_cast; ring
    rw [e, F64.ofRat_int]
    rw [abs_le]; omega
  rw [hsub]
  have habs : F64.abs (.fin (((arrivalNs h - arrivalNs g : ℤ)) : ℚ)) =
      .fin ((|arrivalNs h - arrivalNs g| : ℤ) : ℚ) := by
    show F64.fin _ = F64.fin _
    rw [Int.cast_abs]
  rw [habs, le_ofInt_iff _ _ (by rw [abs_abs, abs_le]; omega) hr]

/-! ### Boxes -/

/-- Absolute rounding error on small numbers. -/
theorem rndQ_abs_err {q : ℚ} (h : |q| ≤ 2 ^ 21) : |rndQ q - q| ≤ 1 / 2 ^ 32 := by
  by_cases hn : (2 : ℚ) ^ (-1022 : ℤ) ≤ |q|
  · refine (abs_rndQ_sub_le hn).trans ?_
    have : |q| * 2 ^ (-53 : ℤ) ≤ 2 ^ 21 * 2 ^ (-53 : ℤ) :=
      mul_le_mul_of_nonneg_right h (two_zpow_pos _).le
    refine this.trans ?_
    norm_num
  · have hq : |q| ≤ (2 : ℚ) ^ (-1022 : ℤ) := le_of_lt (not_le.mp hn)
    have hg : rndQ ((2 : ℚ) ^ (-1022 : ℤ)) = 2 ^ (-1022 : ℤ) :=
      rndQ_of_grid 1 (-1022) (by norm_num) (by norm_num) (by norm_num)
    have h1 := rndQ_mono (abs_le.mp hq).2
    have h2 := rndQ_mono (abs_le.mp hq).1
    rw [rndQ_neg, hg] at h2
    rw [hg] at h1
    have h3 : |rndQ q| ≤ (2 : ℚ) ^ (-1022 : ℤ) := abs_le.mpr ⟨h2, h1⟩
    have hsmall : (2 : ℚ) ^ (-1022 : ℤ) ≤ 2 ^ (-33 : ℤ) := zpow_le_zpow_right₀ (by norm_num) (by norm_num)
    calc |rndQ q - q| ≤ |rndQ q| + |q| := abs_sub _ _
      _ ≤ 2 ^ (-33 : ℤ) + 2 ^ (-33 : ℤ) := add_le_add (h3.trans hsmall) (hq.trans hsmall)
      _ = 1 / 2 ^ 32 := by norm_num

/-- The four box conditions of `accepts`, as rounded rationals. -/
theorem box_iff (s : Slot) (h : Hit) (r : ℚ) (hr : |r| ≤ 2 ^ 900)
    (hx : |h.x| ≤ 2 ^ 53) (hy : |h.y| ≤ 2 ^ 53) (h1 : |s.xmin| ≤ 2 ^ 53) (h2 : |s.xmax| ≤ 2 ^ 53)
    (h3 : |s.ymin| ≤ 2 ^ 53) (h4 : |s.ymax| ≤ 2 ^ 53) :
    (F64.le (F64.sub (F64.ofInt s.xmin) (.fin r)) (F64.ofInt h.x) &&
     F64.le (F64.ofInt h.x) (F64.add (F64.ofInt s.xmax) (.fin r)) &&
     F64.le (F64.sub (F64.ofInt s.ymin) (.fin r)) (F64.ofInt h.y) &&
     F64.le (F64.ofInt h.y) (F64.add (F64.ofInt s.ymax) (.fin r))) = true ↔
    rndQ (s.xmin - r) ≤ h.x ∧ (h.x : ℚ) ≤ rndQ (s.xmax + r) ∧ rndQ (s.ymin - r) ≤ h.y ∧
      (h.y : ℚ) ≤ rndQ (s.ymax + r) := by
  have hb : ∀ n : ℤ, |n| ≤ 2 ^ 53 → |(n : ℚ)| ≤ 2 ^ 53 := by
    intro n hn
    rw [← Int.cast_abs]; exact_mod_cast hn
  have hbig : ((2 : ℚ) ^ 53 + 2 ^ 900) ≤ 2 ^ 1000 := by
    have e1 : (2 : ℚ) ^ 53 ≤ 2 ^ 900 := pow_le_pow_right₀ (by norm_num) (by norm_num)
    have e2 : (2 : ℚ) ^ 901 ≤ 2 ^ 1000 := pow_le_pow_right₀ (by norm_num) (by norm_num)
    have e3 : (2 : ℚ) ^ 901 = 2 ^ 900 + 2 ^ 900 := (pow_succ 2 900).trans (mul_two _)
    rw [e3] at e2
    exact (add_le_add_left e1 _).trans e2
  have hsub : ∀ n : ℤ, |n| ≤ 2 ^ 53 → F64.sub (.fin (n : ℚ)) (.fin r) = .fin (rndQ (n - r)) := by
    intro n hn
    show F64.ofRat ((n : ℚ) + -r) = _
    rw [← sub_eq_add_neg]
    apply F64.ofRat_fin
    exact ((abs_sub _ _).trans (add_le_add (hb n hn) hr)).trans hbig
  have hadd : ∀ n : ℤ, |n| ≤ 2 ^ 53 → F64.add (.fin (n : ℚ)) (.fin r) = .fin (rndQ (n + r)) := by
    intro n hn
    apply F64.ofRat_fin
    exact ((abs_add_le _ _).trans (add_le_add (hb n hn) hr)).trans hbig
  rw [F64.ofInt_exact hx, F64.ofInt_exact hy, F64.ofInt_exact h1, F64.ofInt_exact h2, F64.ofInt_exact h3,
    F64.ofInt_exact h4, hsub _ h1, hsub _ h3, hadd _ h2, hadd _ h4]
  simp only [F64.le, Bool.and_eq_true, decide_eq_true_eq, and_assoc]

end Verif
