import Verif.Props.Abs
import Verif.Props.Hit

/-! # What the wrong arrival times of C04 do to the clustering (C24) -/

namespace Verif.Props

open Verif Verif.Spec

/-- In the case that C04 excludes, the arrival time is 2^30 ticks before the clock, modulo 2^64. -/
theorem early_time (w tdc gdc : U64) (chip : Int) (h0 : gdc.toNat + 40000000 ≤ clock30 w) (h1 : gdc.toNat < 2 ^ 30) :
    (hitGdc w tdc gdc chip).spidertime.toNat = 2 ^ 64 - 2 ^ 30 + clock30 w := by
  rw [hitGdc_spidertime]
  have hr := rawSpider_lt w
  have hc : clock30 w = (rawSpider w).toNat := by
    rw [rawSpider_toNat]; unfold clock30 field; omega
  have he := extendSpider_toNat (rawSpider w) gdc hr
  rw [hc] at h0 ⊢
  rw [fixSpider_eq]
  generalize (rawSpider w).toNat = r at *
  generalize hE : extendSpider (rawSpider w) gdc = E at *
  have hsub : (E - gdc).toNat = (2 ^ 64 - gdc.toNat + E.toNat) % 2 ^ 64 := BitVec.toNat_sub ..
  rw [if_neg (by omega)] at he
  simp only [Nat.reducePow] at *
  have hEr : E.toNat = r := by omega
  rw [if_pos (by rw [hsub]; omega), BitVec.toNat_sub]
  bits_to_nat
  omega

/-- C24: a hit whose clock is a second or more ahead of a global time within its first 26 seconds makes `fit` undefined if
it is the first of its batch. -/
theorem c24_early_undefined (w tdc gdc : U64) (chip : Int) (h0 : gdc.toNat + 40000000 ≤ clock30 w) (h1 : gdc.toNat < 2 ^ 30)
    (o : AbsObj) (data : List Hit) : o.fit (hitGdc w tdc gdc chip :: data) = .ub .floatToInt := by
  apply c24_late_undefined
  rw [early_time w tdc gdc chip h0 h1]
  omega

example : (1#64 : U64).toNat + 40000000 ≤ clock30 (packPixelHit 4000#64 0 0 0 0) ∧ (1#64 : U64).toNat < 2 ^ 30 := by decide

end Verif.Props
