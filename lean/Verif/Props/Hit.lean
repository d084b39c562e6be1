import Verif.Spec.Packet
import Verif.Model.Generator
import Verif.Lemmas.Hit
import Mathlib.Tactic.IntervalCases
import Mathlib.Tactic.Linarith

/-!
# Properties of the hit constructors (C01-C07)
-/

namespace Verif.Props

open Verif Verif.Spec

/-! ## C01: coordinates stay on the detector -/

/-- Pixel position of a hit built by either constructor: it only depends on chip and pixel address. -/
theorem position_gdc (w tdc gdc : U64) (chip : Int) :
    ((hitGdc w tdc gdc chip).x, (hitGdc w tdc gdc chip).y) = layoutXY chip (pixelXY (decPixaddr w)) := rfl

theorem position_tdc (w tdc : U64) (chip : Int) :
    ((hitTdc w tdc chip).x, (hitTdc w tdc chip).y) = layoutXY chip (pixelXY (decPixaddr w)) := rfl

theorem layout_quadrant (chip : Int) (p : BitVec 16) :
    InQuadrant chip (layoutXY chip (pixelXY p)).1 (layoutXY chip (pixelXY p)).2 := by
  have := p.isLt
  rw [pixelXY_eq]
  unfold InQuadrant layoutXY
  split_ifs <;> (try simp only) <;> omega

/-- C01, global-clock constructor: every packet and chip id gives a position on the chip's own quadrant. -/
theorem c01_quadrant_gdc (w tdc gdc : U64) (chip : Int) :
    InQuadrant chip (hitGdc w tdc gdc chip).x (hitGdc w tdc gdc chip).y :=
  layout_quadrant chip (decPixaddr w)

/-- C01, trigger-only constructor. -/
theorem c01_quadrant_tdc (w tdc : U64) (chip : Int) :
    InQuadrant chip (hitTdc w tdc chip).x (hitTdc w tdc chip).y :=
  layout_quadrant chip (decPixaddr w)

/-- C01: a quadrant lies on the 516×516 detector and leaves the four-pixel gap empty, so do the hits. -/
theorem c01_on_detector (w tdc gdc : U64) (chip : Int) :
    let h := hitGdc w tdc gdc chip
    let h' := hitTdc w tdc chip
    (0 ≤ h.x ∧ h.x ≤ 515 ∧ 0 ≤ h.y ∧ h.y ≤ 515 ∧ ¬ (256 ≤ h.x ∧ h.x ≤ 259) ∧ ¬ (256 ≤ h.y ∧ h.y ≤ 259)) ∧
    (0 ≤ h'.x ∧ h'.x ≤ 515 ∧ 0 ≤ h'.y ∧ h'.y ≤ 515 ∧ ¬ (256 ≤ h'.x ∧ h'.x ≤ 259) ∧
      ¬ (256 ≤ h'.y ∧ h'.y ≤ 259)) := by
  have h1 := c01_quadrant_gdc w tdc gdc chip
  have h2 := c01_quadrant_tdc w tdc chip
  unfold InQuadrant at h1 h2
  split_ifs at h1 h2 <;> simp only <;> omega

/-- A packet in the far corner of chip 1. -/
example : (hitTdc 0xB000000000000000#64 5 1).x = 515 ∧ (hitTdc 0xBFFFF00000000000#64 5 1).x = 260 := by
  decide

/-! ## C02: pixel address to coordinate is one-to-one and onto -/

theorem layout_injective (c c' : Int) (p p' : BitVec 16) (hc : 0 ≤ c ∧ c ≤ 3) (hc' : 0 ≤ c' ∧ c' ≤ 3) :
    layoutXY c (pixelXY p) = layoutXY c' (pixelXY p') ↔ c = c' ∧ p = p' := by
  have := p.isLt
  have := p'.isLt
  constructor
  · intro h
    have hq := layout_quadrant c p
    have hq' := layout_quadrant c' p'
    rw [h] at hq
    have hcc : c = c' := by
      unfold InQuadrant at hq hq'
      split_ifs at hq hq' <;> omega
    subst hcc
    refine ⟨rfl, BitVec.eq_of_toNat_eq ?_⟩
    rw [pixelXY_eq, pixelXY_eq] at h
    unfold layoutXY at h
    split_ifs at h <;> simp only [Prod.mk.injEq] at h <;> omega
  · rintro ⟨rfl, rfl⟩; rfl

/-- C02: for chips 0..3, equal position means equal chip and equal 16-bit pixel address. -/
theorem c02_injective (w w' tdc tdc' gdc gdc' : U64) (c c' : Int) (hc : 0 ≤ c ∧ c ≤ 3)
    (hc' : 0 ≤ c' ∧ c' ≤ 3) :
    ((hitGdc w tdc gdc c).x, (hitGdc w tdc gdc c).y) = ((hitGdc w' tdc' gdc' c').x, (hitGdc w' tdc' gdc' c').y) ↔
      c = c' ∧ field w 44 16 = field w' 44 16 := by
  rw [position_gdc, position_gdc, layout_injective c c' _ _ hc hc']
  unfold field
  rw [← decPixaddr_toNat, ← decPixaddr_toNat, BitVec.toNat_inj]

/-- C02 for the trigger-only constructor, and across the two constructors. -/
theorem c02_injective_tdc (w w' tdc tdc' gdc : U64) (c c' : Int) (hc : 0 ≤ c ∧ c ≤ 3)
    (hc' : 0 ≤ c' ∧ c' ≤ 3) :
    (((hitTdc w tdc c).x, (hitTdc w tdc c).y) = ((hitTdc w' tdc' c').x, (hitTdc w' tdc' c').y) ↔
      c = c' ∧ field w 44 16 = field w' 44 16) ∧
    (((hitGdc w tdc gdc c).x, (hitGdc w tdc gdc c).y) = ((hitTdc w tdc c).x, (hitTdc w tdc c).y)) := by
  refine ⟨?_, rfl⟩
  rw [position_tdc, position_tdc, layout_injective c c' _ _ hc hc']
  unfold field
  rw [← decPixaddr_toNat, ← decPixaddr_toNat, BitVec.toNat_inj]

/-- C02, onto: every coordinate of a chip's quadrant is produced by some hit packet (type nibble 0xb). -/
theorem c02_surjective (chip x y : Int) (tdc gdc : U64) (h : InQuadrant chip x y) :
    ∃ w : U64, kind w = 0xb ∧ (hitGdc w tdc gdc chip).x = x ∧ (hitGdc w tdc gdc chip).y = y ∧
      (hitTdc w tdc chip).x = x ∧ (hitTdc w tdc chip).y = y := by
  -- chip-local coordinates
  obtain ⟨a, b, ha, hb, hl⟩ : ∃ a b : Nat, a < 256 ∧ b < 256 ∧ layoutXY chip ((a : Int), (b : Int)) = (x, y) := by
    unfold InQuadrant at h
    unfold layoutXY
    split_ifs at h ⊢ with h0 h1 h2
    · exact ⟨(x - 260).toNat, y.toNat, by omega, by omega, by simp only [Prod.mk.injEq]; omega⟩
    · exact ⟨(515 - x).toNat, (515 - y).toNat, by omega, by omega, by simp only [Prod.mk.injEq]; omega⟩
    · exact ⟨(255 - x).toNat, (515 - y).toNat, by omega, by omega, by simp only [Prod.mk.injEq]; omega⟩
    · exact ⟨x.toNat, y.toNat, by omega, by omega, by simp only [Prod.mk.injEq]; omega⟩
  obtain ⟨p, hp16, hpa, hpb⟩ : ∃ p : Nat, p < 65536 ∧ 2 * (p / 512) + p / 4 % 2 = a ∧
      4 * (p / 8 % 64) + p % 4 = b :=
    ⟨a / 2 * 512 + (b / 4 * 8 + (a % 2 * 4 + b % 4)), by omega, by omega, by omega⟩
  obtain ⟨w, hw⟩ : ∃ w : U64, w.toNat = 0xb * 2 ^ 60 + p * 2 ^ 44 :=
    ⟨BitVec.ofNat 64 (0xb * 2 ^ 60 + p * 2 ^ 44), by rw [BitVec.toNat_ofNat]; omega⟩
  have hdec : (decPixaddr w).toNat = p := by rw [decPixaddr_toNat, hw]; omega
  have hpix : pixelXY (decPixaddr w) = ((a : Int), (b : Int)) := by
    rw [pixelXY_eq, hdec]
    simp only [Prod.mk.injEq]
    omega
  have hpos : layoutXY chip (pixelXY (decPixaddr w)) = (x, y) := by rw [hpix, hl]
  refine ⟨w, ?_, ?_, ?_, ?_, ?_⟩
  · unfold kind field; rw [hw]; omega
  · show (layoutXY chip (pixelXY (decPixaddr w))).1 = x; rw [hpos]
  · show (layoutXY chip (pixelXY (decPixaddr w))).2 = y; rw [hpos]
  · show (layoutXY chip (pixelXY (decPixaddr w))).1 = x; rw [hpos]
  · show (layoutXY chip (pixelXY (decPixaddr w))).2 = y; rw [hpos]

example : InQuadrant 2 17 300 := by decide

/-! ## C03: packet fields decode to what was encoded -/

/-- A field that fits its mask, shifted inside 64 bits. -/
theorem field_shift (x m k : Nat) (h : x < m) (hk : m * k ≤ 18446744073709551616) :
    x % m * k % 18446744073709551616 = x * k := by
  rw [Nat.mod_eq_of_lt h]
  rcases Nat.eq_zero_or_pos k with rfl | hpos
  · simp
  · exact Nat.mod_eq_of_lt (lt_of_lt_of_le (Nat.mul_lt_mul_of_pos_right h hpos) hk)

/-- Adding one field below those already packed. -/
theorem or_field (a b c k m : Nat) (ha : a % 2 ^ k = 0) (hb : b < m) (hm : m * c ≤ 2 ^ k) (hc : 0 < c) :
    a ||| b * c = a + b * c :=
  or_eq_add a (b * c) k ha (lt_of_lt_of_le (Nat.mul_lt_mul_of_pos_right hb hc) hm)

theorem packPixelHit_toNat (sp ft tot toa pix : U64) (h1 : sp.toNat < 2 ^ 16) (h2 : ft.toNat < 2 ^ 4)
    (h3 : tot.toNat < 2 ^ 10) (h4 : toa.toNat < 2 ^ 14) (h5 : pix.toNat < 2 ^ 16) :
    (packPixelHit sp ft tot toa pix).toNat =
      0xb * 2 ^ 60 + pix.toNat * 2 ^ 44 + toa.toNat * 2 ^ 30 + tot.toNat * 2 ^ 20 + ft.toNat * 2 ^ 16 +
        sp.toNat := by
  unfold packPixelHit
  simp only [BitVec.toNat_or]
  bits_to_nat
  simp only [Nat.reducePow] at *
  rw [field_shift _ _ _ h5 (by norm_num), field_shift _ _ _ h4 (by norm_num),
    field_shift _ _ _ h3 (by norm_num), field_shift _ _ _ (show ft.toNat < 256 by omega) (by norm_num),
    Nat.mod_eq_of_lt h1]
  have e1 := or_field 12682136550675316736 _ 17592186044416 60 _ (by norm_num) h5 (by norm_num) (by norm_num)
  rw [e1]
  have e2 := or_field (12682136550675316736 + pix.toNat * 17592186044416) _ 1073741824 44 _
    (by clear e1; omega) h4 (by norm_num) (by norm_num)
  rw [e2]
  have e3 := or_field (12682136550675316736 + pix.toNat * 17592186044416 + toa.toNat * 1073741824) _ 1048576 30 _
    (by clear e1 e2; omega) h3 (by norm_num) (by norm_num)
  rw [e3]
  have e4 := or_field (12682136550675316736 + pix.toNat * 17592186044416 + toa.toNat * 1073741824 +
    tot.toNat * 1048576) _ 65536 20 _ (by clear e1 e2 e3; omega) h2 (by norm_num) (by norm_num)
  rw [e4, or_eq_add _ _ 16 (by clear e1 e2 e3 e4; omega) h1]

/-- C03: the generator's hit packet is a hit packet and decodes to the encoded fields, in both modes. -/
theorem c03_roundtrip (sp ft tot toa pix tdc gdc : U64) (chip : Int) (h1 : sp.toNat < 2 ^ 16)
    (h2 : ft.toNat < 2 ^ 4) (h3 : tot.toNat < 2 ^ 10) (h4 : toa.toNat < 2 ^ 14) (h5 : pix.toNat < 2 ^ 16) :
    let w := packPixelHit sp ft tot toa pix
    isHit w = true ∧ isTdc w = false ∧ isGdc w = false ∧
    (hitGdc w tdc gdc chip).tot = tot.toNat ∧ (hitGdc w tdc gdc chip).toa = toa.toNat ∧
    (hitGdc w tdc gdc chip).ftoa = ft.toNat ∧
    (hitTdc w tdc chip).tot = tot.toNat ∧ (hitTdc w tdc chip).toa = toa.toNat ∧
    (hitTdc w tdc chip).ftoa = ft.toNat ∧
    clock30 w = sp.toNat * 2 ^ 14 + toa.toNat ∧
    -- pixel position: the chip-local column and row packed in the address
    (chip ∉ [0, 1, 2] → (hitGdc w tdc gdc chip).x = 2 * (pix.toNat / 512) + pix.toNat / 4 % 2 ∧
      (hitGdc w tdc gdc chip).y = 4 * (pix.toNat / 8 % 64) + pix.toNat % 4) := by
  intro w
  have hw := packPixelHit_toNat sp ft tot toa pix h1 h2 h3 h4 h5
  change w.toNat = _ at hw
  have hb : (byteOf w 7).toNat = 0xb0 + pix.toNat / 2 ^ 12 := by
    rw [byteOf_toNat, hw]; omega
  refine ⟨?_, ?_, ?_, ?_, ?_, ?_, ?_, ?_, ?_, ?_, ?_⟩
  · unfold isHit; rw [beq_iff_eq]; apply BitVec.eq_of_toNat_eq; bits_to_nat; rw [hb]; omega
  · unfold isTdc; rw [beq_eq_false_iff_ne]; intro h; have := congrArg BitVec.toNat h
    rw [hb] at this; simp at this; omega
  · unfold isGdc; rw [beq_eq_false_iff_ne]; intro h; have := congrArg BitVec.toNat h
    revert this; bits_to_nat; rw [hb]; omega
  · show ((decTot w : Nat) : Int) = _; rw [decTot_eq, hw]; omega
  · show ((decToa w : Nat) : Int) = _; rw [decToa_eq, hw]; omega
  · show ((decFtoa w : Nat) : Int) = _; rw [decFtoa_eq, hw]; omega
  · show ((decTot w : Nat) : Int) = _; rw [decTot_eq, hw]; omega
  · show ((decToa w : Nat) : Int) = _; rw [decToa_eq, hw]; omega
  · show ((decFtoa w : Nat) : Int) = _; rw [decFtoa_eq, hw]; omega
  · unfold clock30 field; rw [hw]; omega
  · intro hchip
    simp only [List.mem_cons, List.not_mem_nil, or_false, not_or] at hchip
    have hd : (decPixaddr w).toNat = pix.toNat := by rw [decPixaddr_toNat, hw]; omega
    show (layoutXY chip (pixelXY (decPixaddr w))).1 = _ ∧ (layoutXY chip (pixelXY (decPixaddr w))).2 = _
    rw [pixelXY_eq, hd]
    unfold layoutXY
    simp only [hchip, if_false]
    omega

theorem packDataHeader_toNat (three chip mode numBytes : U64) (hc : chip.toNat < 128)
    (h3 : three.toNat < 256) (hm : mode.toNat < 256) (hn : numBytes.toNat < 2 ^ 16) :
    (packDataHeader 0x54#64 0x50#64 0x58#64 three chip mode numBytes).toNat =
      numBytes.toNat * 2 ^ 48 + mode.toNat * 2 ^ 40 + chip.toNat * 2 ^ 32 + three.toNat * 2 ^ 24 +
        0x585054 := by
  unfold packDataHeader
  simp only [BitVec.toNat_or]
  bits_to_nat
  simp only [Nat.reducePow] at *
  have hc' : chip.toNat < 256 := by omega
  rw [field_shift _ _ _ hn (by norm_num), field_shift _ _ _ hm (by norm_num),
    field_shift _ _ _ hc' (by norm_num), field_shift _ _ _ h3 (by norm_num)]
  have e1 := or_field (numBytes.toNat * 281474976710656) _ 1099511627776 48 _ (by omega) hm
    (by norm_num) (by norm_num)
  rw [e1]
  have e2 := or_field (numBytes.toNat * 281474976710656 + mode.toNat * 1099511627776) _ 4294967296 40 _
    (by clear e1; omega) hc' (by norm_num) (by norm_num)
  rw [e2]
  have e3 := or_field (numBytes.toNat * 281474976710656 + mode.toNat * 1099511627776 +
    chip.toNat * 4294967296) _ 16777216 32 _ (by clear e1 e2; omega) h3 (by norm_num) (by norm_num)
  rw [e3]
  clear e1 e2 e3
  rewrite [or_eq_add _ 5767168 24 (by omega) (by norm_num), or_eq_add _ 20480 16 (by omega) (by norm_num),
    or_eq_add _ 84 8 (by omega) (by norm_num)]
  omega

/-- C03 for headers: the generator's chunk header is recognised, with its packet count and chip. -/
theorem c03_header_roundtrip (three chip mode numBytes : U64) (hc : chip.toNat < 128)
    (h3 : three.toNat < 256) (hm : mode.toNat < 256) (hn : numBytes.toNat < 2 ^ 16) :
    let w := packDataHeader 0x54#64 0x50#64 0x58#64 three chip mode numBytes
    isHeader w = true ∧ headerPackets w = numBytes.toNat / 8 ∧ headerChip w = chip.toNat := by
  intro w
  have hw := packDataHeader_toNat three chip mode numBytes hc h3 hm hn
  change w.toNat = _ at hw
  refine ⟨?_, ?_, ?_⟩
  · unfold isHeader
    simp only [Bool.and_eq_true, beq_iff_eq]
    refine ⟨⟨?_, ?_⟩, ?_⟩ <;> apply BitVec.eq_of_toNat_eq <;> rw [byteOf_toNat, hw] <;> bits_to_nat <;> omega
  · have h7 := byteOf_toNat w 7
    have h6 := byteOf_toNat w 6
    have key : ∀ b : Byte, (0xff#32 &&& b.signExtend 32).toNat = b.toNat := by decide
    unfold headerPackets
    rw [BitVec.toNat_or, BitVec.toNat_shiftLeft, key, key, Nat.shiftLeft_eq, or_eq_add _ _ 8,
      Nat.shiftRight_eq_div_pow, h7, h6, hw] <;> omega
  · unfold headerChip
    have h4 : (byteOf w 4).toNat = chip.toNat := by rw [byteOf_toNat, hw]; omega
    rw [BitVec.toInt_eq_toNat_cond, h4]
    omega

example : isHit (packPixelHit 0xF000#64 0xF#64 0x3FF#64 0x3FFF#64 0x9876#64) = true := by decide

/-- The generator's mask for the fine ToA is 8 bits wide (line 51), four more than the field: outside
the field width the encoding spills into the ToT. -/
theorem c03_wide_ftoa_witness :
    (hitTdc (packPixelHit 0 0x10#64 0 0 0) 1 3).tot = 1 := by decide

/-! ## C04: arrival time (global-clock mode) -/

/-- C04, exact: for a 48-bit global timestamp, `getSPIDERTIME()` is the arrival time of the property
unless the timestamp is so small that the subtraction of `2^30` underflows, or so large that the
48-bit addition wraps.  (`clock30` is the packet's 30-bit clock.) -/
theorem c04_arrival_iff (w tdc gdc : U64) (chip : Int) (hg : gdc.toNat < 2 ^ 48) :
    IsArrival (clock30 w) gdc.toNat (hitGdc w tdc gdc chip).spidertime.toNat ↔
      ¬ (gdc.toNat + 40000000 ≤ clock30 w ∧ gdc.toNat < 2 ^ 30) ∧
      ¬ (2 ^ 48 - 2 ^ 30 ≤ gdc.toNat ∧ clock30 w < gdc.toNat % 2 ^ 30) := by
  rw [hitGdc_spidertime]
  have hr := rawSpider_lt w
  have hc : clock30 w = (rawSpider w).toNat := by
    rw [rawSpider_toNat]; unfold clock30 field; omega
  have he := extendSpider_toNat (rawSpider w) gdc hr
  rw [hc, fixSpider_eq]
  generalize (rawSpider w).toNat = r at *
  generalize hE : extendSpider (rawSpider w) gdc = E at *
  have hsub : (E - gdc).toNat = (2 ^ 64 - gdc.toNat + E.toNat) % 2 ^ 64 := BitVec.toNat_sub ..
  have hElt := E.isLt
  rw [hsub]
  unfold IsArrival
  simp only [Nat.reducePow] at *
  by_cases hlt : r < gdc.toNat % 1073741824
  · rw [if_pos hlt] at he
    split_ifs with hd
    · rw [BitVec.toNat_sub]; bits_to_nat; omega
    · omega
  · rw [if_neg hlt] at he
    split_ifs with hd
    · rw [BitVec.toNat_sub]; bits_to_nat; omega
    · omega

/-- C04: away from the two ends of the 48-bit range (0.97·2^30 ticks = 25.8 s after the start, 26.8 s
before the wrap after 81 days) the arrival time is right for every packet. -/
theorem c04_arrival_partial (w tdc gdc : U64) (chip : Int) (h0 : 2 ^ 30 - 40000000 ≤ gdc.toNat)
    (h1 : gdc.toNat < 2 ^ 48 - 2 ^ 30) :
    IsArrival (clock30 w) gdc.toNat (hitGdc w tdc gdc chip).spidertime.toNat := by
  rw [c04_arrival_iff w tdc gdc chip (by omega)]
  have : clock30 w < 2 ^ 30 := by unfold clock30 field; omega
  omega

example : (2 : Nat) ^ 30 - 40000000 ≤ (0x123456789AB#64 : U64).toNat ∧ (0x123456789AB#64 : U64).toNat < 2 ^ 48 - 2 ^ 30 := by
  decide

/-- C04 is false as stated: with global time 1 and a packet clock of 5e7 ticks (1.25 s) the result
underflows to almost 2^64. -/
theorem c04_false_low : ∃ w tdc gdc : U64, gdc.toNat < 2 ^ 48 ∧
    ¬ IsArrival (clock30 w) gdc.toNat (hitGdc w tdc gdc 0).spidertime.toNat ∧
    2 ^ 63 < (hitGdc w tdc gdc 0).spidertime.toNat := by
  let w := packPixelHit 4000#64 0 0 0 0
  have hE : fixSpider (extendSpider (rawSpider w) 1#64) 1#64 = 18446744072701345792#64 := by
    rw [fixSpider_eq]; decide
  refine ⟨w, 1#64, 1#64, by decide, ?_, ?_⟩
  · rw [c04_arrival_iff _ _ _ _ (by decide)]; decide
  · rw [hitGdc_spidertime, hE]; decide

/-- C04 is false at the upper end, too: the 48-bit wrap is not followed. -/
theorem c04_false_high : ∃ w tdc gdc : U64, gdc.toNat < 2 ^ 48 ∧
    ¬ IsArrival (clock30 w) gdc.toNat (hitGdc w tdc gdc 0).spidertime.toNat := by
  refine ⟨0xB000000000000000#64, 1#64, 0xFFFFFFFFFFFF#64, by decide, ?_⟩
  rw [c04_arrival_iff _ _ _ _ (by decide)]
  decide

/-! ## C05: time of flight (global-clock mode) -/

/-- C05, bound: the folding loop ends for every packet and every timestamps, and the time of flight is at
most 666800 ticks of 25 ns, i.e. 16.67 ms. -/
theorem c05_bounded (w tdc gdc : U64) (chip : Int) :
    ∃ t : U32, (hitGdc w tdc gdc chip).tof = some t ∧ t.toNat * 25 ≤ 16670000 := by
  rw [hitGdc_tof]
  obtain ⟨r, h1, h2, _⟩ := foldTof_spec (2 ^ 32) (rawTof (hitGdc w tdc gdc chip).spidertime tdc)
    (Nat.le_of_lt (BitVec.isLt _))
  exact ⟨r, h1, by omega⟩

/-- C05, residue: for a hit not before the trigger and less than 2^32 ticks after it, the time of flight
is arrival minus trigger up to whole periods of 666667 ticks (and equal to it within the first period).
What is missing from C05: hits before the trigger (see `c05_false`) and hits 107 s or more after it. -/
theorem c05_residue_partial (w tdc gdc : U64) (chip : Int) (t : U32)
    (ht : (hitGdc w tdc gdc chip).tof = some t)
    (h0 : tdc.toNat ≤ (hitGdc w tdc gdc chip).spidertime.toNat)
    (h1 : (hitGdc w tdc gdc chip).spidertime.toNat < tdc.toNat + 2 ^ 32) :
    (∃ k : Nat, t.toNat + k * 666667 = (hitGdc w tdc gdc chip).spidertime.toNat - tdc.toNat) ∧
    ((hitGdc w tdc gdc chip).spidertime.toNat - tdc.toNat ≤ 666800 →
      t.toNat = (hitGdc w tdc gdc chip).spidertime.toNat - tdc.toNat) := by
  rw [hitGdc_tof] at ht
  generalize (hitGdc w tdc gdc chip).spidertime = s at *
  have hraw : (rawTof s tdc).toNat = s.toNat - tdc.toNat := by
    unfold rawTof
    rw [BitVec.toNat_setWidth, BitVec.toNat_sub]
    have := s.isLt
    omega
  obtain ⟨r, e1, e2, e3, e4, e5⟩ := foldTof_spec (2 ^ 32) (rawTof s tdc) (Nat.le_of_lt (BitVec.isLt _))
  have hrt : r = t := by rw [ht] at e1; exact (Option.some.inj e1).symm
  subst hrt
  rw [hraw] at e3 e4 e5
  refine ⟨⟨(s.toNat - tdc.toNat - r.toNat) / 666667, by omega⟩, fun h => ?_⟩
  have := e5 h
  rw [this, hraw]

/-- C05, exact residue for all timestamps: the difference is first reduced modulo 2^32 (the width of
`m_tof`), then modulo the period.  Since 2^32 is not a multiple of 666667, the residue promised by C05
is shifted by 298482 ticks per wrap. -/
theorem c05_residue_exact (w tdc gdc : U64) (chip : Int) (t : U32)
    (ht : (hitGdc w tdc gdc chip).tof = some t) :
    (t.toNat : Int) % 666667 =
      (((hitGdc w tdc gdc chip).spidertime.toNat : Int) - tdc.toNat) % 2 ^ 32 % 666667 := by
  rw [hitGdc_tof] at ht
  generalize (hitGdc w tdc gdc chip).spidertime = s at *
  have hraw : ((rawTof s tdc).toNat : Int) = ((s.toNat : Int) - tdc.toNat) % 2 ^ 32 := by
    unfold rawTof
    rw [BitVec.toNat_setWidth, BitVec.toNat_sub]
    have := s.isLt
    have := tdc.isLt
    omega
  obtain ⟨r, e1, _, _, e4, _⟩ := foldTof_spec (2 ^ 32) (rawTof s tdc) (Nat.le_of_lt (BitVec.isLt _))
  have hrt : r = t := by rw [ht] at e1; exact (Option.some.inj e1).symm
  subst hrt
  rw [← hraw]
  omega

example : ((2 : Int) ^ 32) % 666667 = 298482 := by norm_num

/-- C05 is false as stated: a hit that precedes the trigger by one tick gets a time of flight
which is not -1 modulo the period (the wrap of the 32-bit difference shifts it by 298482 ticks, 7.46 ms). -/
theorem c05_false : ∃ w tdc gdc : U64, ∃ t : U32, (hitGdc w tdc gdc 0).tof = some t ∧
    (hitGdc w tdc gdc 0).spidertime.toNat + 1 = tdc.toNat ∧
    ¬ ((666667 : Int) ∣ t.toNat - ((hitGdc w tdc gdc 0).spidertime.toNat - tdc.toNat)) := by
  have hs : (hitGdc 0xB000000000000000#64 0x40000001#64 0x40000000#64 0).spidertime = 0x40000000#64 := by
    rw [hitGdc_spidertime, fixSpider_eq]; decide
  have hraw : (rawTof 0x40000000#64 0x40000001#64).toNat = 4294967295 := by decide
  obtain ⟨r, e1, e2, e3, e4, _⟩ := foldTof_spec (2 ^ 32) (rawTof 0x40000000#64 0x40000001#64)
    (Nat.le_of_lt (BitVec.isLt _))
  rw [hraw] at e4
  refine ⟨0xB000000000000000#64, 0x40000001#64, 0x40000000#64, r, ?_, ?_, ?_⟩
  · rw [hitGdc_tof, hs]; exact e1
  · rw [hs]; decide
  · rw [hs]
    have h1 : (0x40000000#64 : U64).toNat = 1073741824 := by decide
    have h2 : (0x40000001#64 : U64).toNat = 1073741825 := by decide
    rw [h1, h2]
    omega

/-- 2^32 is invertible modulo 666667. -/
theorem period_dvd_wraps (q : Int) (h : (666667 : Int) ∣ 4294967296 * q) : (666667 : Int) ∣ q := by
  obtain ⟨k, hk⟩ := h
  exact ⟨359363 * k - 2315177341 * q, by omega⟩

theorem period_residue_iff (r d : Int) (h : r % 666667 = d % 4294967296 % 666667) :
    (666667 : Int) ∣ r - d ↔ (666667 : Int) ∣ d / 4294967296 := by
  have hd := Int.mul_ediv_add_emod d 4294967296
  have hr := Int.mul_ediv_add_emod r 666667
  have hm := Int.mul_ediv_add_emod (d % 4294967296) 666667
  rw [h] at hr
  generalize d % 4294967296 % 666667 = z at *
  generalize d % 4294967296 / 666667 = x at *
  generalize d % 4294967296 = m at *
  generalize d / 4294967296 = q at *
  generalize r / 666667 = y at *
  have e : r - d = 666667 * (y - x) - 4294967296 * q := by linarith
  rw [e]
  constructor
  · rintro ⟨k, hk⟩
    exact period_dvd_wraps q ⟨y - x - k, by linarith⟩
  · rintro ⟨k, hk⟩
    exact ⟨y - x - 4294967296 * k, by rw [hk]; ring⟩

/-- C05, exact condition: the residue is the promised one if and only if the number of 32-bit wraps between
trigger and hit (negative for hits before the trigger) is a multiple of 666667. -/
theorem c05_residue_iff (w tdc gdc : U64) (chip : Int) (t : U32)
    (ht : (hitGdc w tdc gdc chip).tof = some t) :
    ((666667 : Int) ∣ t.toNat - ((hitGdc w tdc gdc chip).spidertime.toNat - tdc.toNat)) ↔
      ((666667 : Int) ∣ (((hitGdc w tdc gdc chip).spidertime.toNat : Int) - tdc.toNat) / 2 ^ 32) :=
  period_residue_iff _ _ (c05_residue_exact w tdc gdc chip t ht)

/-- C05, exact condition on the clocks of a measurement: for arrival and trigger less than 666667 wraps of the
32-bit difference apart (2^48 ticks are 65536 wraps) the residue is the promised one if and only if the hit is
not before the trigger and less than 2^32 ticks after it. -/
theorem c05_clock_iff (w tdc gdc : U64) (chip : Int) (t : U32)
    (ht : (hitGdc w tdc gdc chip).tof = some t)
    (h0 : (hitGdc w tdc gdc chip).spidertime.toNat < tdc.toNat + 666667 * 2 ^ 32)
    (h1 : tdc.toNat < (hitGdc w tdc gdc chip).spidertime.toNat + 666667 * 2 ^ 32 - 2 ^ 32) :
    ((666667 : Int) ∣ t.toNat - ((hitGdc w tdc gdc chip).spidertime.toNat - tdc.toNat)) ↔
      tdc.toNat ≤ (hitGdc w tdc gdc chip).spidertime.toNat ∧
        (hitGdc w tdc gdc chip).spidertime.toNat < tdc.toNat + 2 ^ 32 := by
  rw [c05_residue_iff w tdc gdc chip t ht]
  generalize (hitGdc w tdc gdc chip).spidertime.toNat = s at *
  generalize tdc.toNat = u at *
  constructor
  · rintro ⟨k, hk⟩
    have : k = 0 := by omega
    subst this
    omega
  · rintro ⟨h2, h3⟩
    exact ⟨0, by omega⟩

/-- Trigger and hit of a measurement: a hit one tick after its trigger. -/
example : (hitGdc 0xB000000000000000#64 0x3FFFFFFF#64 0x40000000#64 0).spidertime = 0x40000000#64 := by
  rw [hitGdc_spidertime, fixSpider_eq]; decide

/-! ## C06: time of flight (trigger-only mode) -/

/-- The arrival time stored in trigger-only mode: the 30-bit clock, plus 2^30 if the trigger is more than
0x400000 ticks later. -/
theorem c06_arrival (w tdc : U64) (chip : Int) :
    (hitTdc w tdc chip).spidertime.toNat =
      clock30 w + (if clock30 w + 0x400000 < tdc.toNat then 2 ^ 30 else 0) := by
  rw [hitTdc_spidertime]
  have hr := rawSpider_lt w
  have hc : clock30 w = (rawStamp w).toNat := by
    rw [rawStamp_toNat, rawSpider_toNat]; unfold clock30 field; omega
  rw [← rawStamp_toNat] at hr
  rw [hc]
  exact extendStamp_toNat _ _ hr

/-- C06, exact: the time of flight is defined precisely if the (extended) arrival is not before the trigger,
and then it is their difference. -/
theorem c06_tof_iff (w tdc : U64) (chip : Int) :
    (tdc.toNat ≤ (hitTdc w tdc chip).spidertime.toNat → ∃ t : U32, (hitTdc w tdc chip).tof = some t ∧
      t.toNat = (hitTdc w tdc chip).spidertime.toNat - tdc.toNat) ∧
    ((hitTdc w tdc chip).spidertime.toNat < tdc.toNat → (hitTdc w tdc chip).tof = none) := by
  have hs := c06_arrival w tdc chip
  have hlt : clock30 w < 2 ^ 30 := by unfold clock30 field; omega
  have htof := hitTdc_tof w tdc chip
  generalize (hitTdc w tdc chip).spidertime = s at *
  rw [htof]
  have hs' : s.toNat < 2 ^ 31 := by
    split_ifs at hs <;> omega
  constructor
  · intro hle
    refine ⟨(s - tdc).setWidth 32, ?_, ?_⟩
    · rw [if_pos hle]
    · rw [BitVec.toNat_setWidth, BitVec.toNat_sub]
      omega
  · intro hgt
    rw [if_neg (by omega)]

/-- C06 holds for triggers at most `clock30 w`, in particular... up to the trigger the packet refers to.
What is missing: triggers after the arrival (within 0x400000 ticks), and all triggers from 2^31 on. -/
theorem c06_defined_partial (w tdc : U64) (chip : Int)
    (h : tdc.toNat ≤ clock30 w ∨ (clock30 w + 0x400000 < tdc.toNat ∧ tdc.toNat ≤ clock30 w + 2 ^ 30)) :
    ∃ t : U32, (hitTdc w tdc chip).tof = some t ∧
      t.toNat = (hitTdc w tdc chip).spidertime.toNat - tdc.toNat := by
  refine (c06_tof_iff w tdc chip).1 ?_
  rw [c06_arrival]
  split_ifs <;> omega

example : (77#64 : U64).toNat ≤ clock30 0xB000000000000078#64 := by decide

/-- C06 is false as stated: from 2^31 ticks (53.7 s) of trigger time on, no hit at all has a defined time of
flight. -/
theorem c06_false_late (w tdc : U64) (chip : Int) (h : 2 ^ 31 ≤ tdc.toNat) : (hitTdc w tdc chip).tof = none := by
  refine (c06_tof_iff w tdc chip).2 ?_
  rw [c06_arrival]
  have hlt : clock30 w < 2 ^ 30 := by unfold clock30 field; omega
  split_ifs <;> omega

/-- C06 is false for hits shortly before the trigger as well. -/
theorem c06_false_early (w tdc : U64) (chip : Int) (h0 : clock30 w < tdc.toNat)
    (h1 : tdc.toNat ≤ clock30 w + 0x400000) : (hitTdc w tdc chip).tof = none := by
  refine (c06_tof_iff w tdc chip).2 ?_
  rw [c06_arrival]
  split_ifs <;> omega

example : (2 : Nat) ^ 31 ≤ (0x80000000#64 : U64).toNat := by decide
example : clock30 0xB000000000000000#64 < (5#64 : U64).toNat := by decide

/-! ## C07: nanosecond getters are exact -/

/-- C07: for every hit with field values in range, the nanosecond getters return exactly 25 (25/16) times
the tick count. -/
theorem c07_ns_exact (h : Hit) (h1 : 0 ≤ h.toa ∧ h.toa < 2 ^ 14) (h2 : 0 ≤ h.tot ∧ h.tot < 2 ^ 10)
    (h3 : 0 ≤ h.ftoa ∧ h.ftoa < 2 ^ 4) (h4 : h.spidertime.toNat < 2 ^ 48) :
    (∀ t, h.tof = some t → h.tofNs = some (.fin (25 * t.toNat))) ∧
    h.toaNs = .fin (25 * h.toa) ∧ h.totNs = .fin (25 * h.tot) ∧
    h.spidertimeNs = .fin (25 * h.spidertime.toNat) ∧ h.ftoaNs = .fin (25 / 16 * h.ftoa) := by
  refine ⟨?_, ?_, ?_, ?_, ?_⟩
  · intro t ht
    have := t.isLt
    unfold Hit.tofNs
    rw [ht]
    simp only [Option.map_some, Option.some.injEq]
    rw [F64_ns_exact _ (by omega) (by omega)]
    push_cast; rfl
  · unfold Hit.toaNs; rw [F64_ns_exact _ (by omega) (by omega)]; push_cast; rfl
  · unfold Hit.totNs; rw [F64_ns_exact _ (by omega) (by omega)]; push_cast; rfl
  · unfold Hit.spidertimeNs; rw [F64_ns_exact _ (by omega) (by omega)]; push_cast; rfl
  · unfold Hit.ftoaNs
    have h16 : F64.ofRat 16 = .fin 16 := by
      have := F64.ofRat_int (n := 16) (by norm_num); exact_mod_cast this
    rw [F64.ofInt_exact (by rw [abs_of_nonneg h3.1]; omega), F64_25, h16]
    have hsc : F64.div (.fin 25) (.fin 16) = .fin (25 / 16) := by
      simp only [F64.div]
      rw [if_neg (by norm_num), F64.ofRat_fin]
      · rw [rndQ_of_grid 25 (-4) (by norm_num) (by norm_num) (by norm_num)]
      · rw [abs_of_pos (by norm_num)]
        calc (25 / 16 : ℚ) ≤ 2 ^ (1 : ℤ) := by norm_num
          _ ≤ 2 ^ (1000 : ℤ) := zpow_le_zpow_right₀ (by norm_num) (by norm_num)
    rw [hsc]
    simp only [F64.mul]
    have hq0 : (0 : ℚ) ≤ h.ftoa := by exact_mod_cast h3.1
    have hq1 : (h.ftoa : ℚ) ≤ 16 := by
      have : h.ftoa ≤ 16 := by omega
      exact_mod_cast this
    rw [F64.ofRat_fin, rndQ_of_grid (25 * h.ftoa) (-4) (by push_cast; norm_num; ring) (by norm_num)
      (by rw [abs_of_nonneg (by omega)]; omega)]
    · rw [mul_comm]
    · rw [abs_of_nonneg (by positivity)]
      calc (h.ftoa : ℚ) * (25 / 16) ≤ 16 * (25 / 16) := mul_le_mul_of_nonneg_right hq1 (by norm_num)
        _ ≤ 2 ^ (5 : ℤ) := by norm_num
        _ ≤ 2 ^ (1000 : ℤ) := zpow_le_zpow_right₀ (by norm_num) (by norm_num)

/-- The ranges of C07 hold for every hit built from a packet without global timestamp, and for every hit
built with one in the regular range of C04. -/
theorem c07_ranges (w tdc gdc : U64) (chip : Int) :
    let h := hitTdc w tdc chip
    let h' := hitGdc w tdc gdc chip
    ((0 ≤ h.toa ∧ h.toa < 2 ^ 14) ∧ (0 ≤ h.tot ∧ h.tot < 2 ^ 10) ∧ (0 ≤ h.ftoa ∧ h.ftoa < 2 ^ 4) ∧
      h.spidertime.toNat < 2 ^ 48) ∧
    ((0 ≤ h'.toa ∧ h'.toa < 2 ^ 14) ∧ (0 ≤ h'.tot ∧ h'.tot < 2 ^ 10) ∧ (0 ≤ h'.ftoa ∧ h'.ftoa < 2 ^ 4) ∧
      (2 ^ 30 - 40000000 ≤ gdc.toNat → gdc.toNat < 2 ^ 48 - 2 ^ 30 → h'.spidertime.toNat < 2 ^ 48)) := by
  have e1 := decToa_eq w
  have e2 := decTot_eq w
  have e3 := decFtoa_eq w
  have a1 : 0 ≤ ((decToa w : Nat) : Int) ∧ ((decToa w : Nat) : Int) < 2 ^ 14 := by omega
  have a2 : 0 ≤ ((decTot w : Nat) : Int) ∧ ((decTot w : Nat) : Int) < 2 ^ 10 := by omega
  have a3 : 0 ≤ ((decFtoa w : Nat) : Int) ∧ ((decFtoa w : Nat) : Int) < 2 ^ 4 := by omega
  refine ⟨⟨a1, a2, a3, ?_⟩, ⟨a1, a2, a3, ?_⟩⟩
  · rw [c06_arrival]
    have hlt : clock30 w < 2 ^ 30 := by unfold clock30 field; omega
    split_ifs <;> omega
  · intro h0 h1
    have := c04_arrival_partial w tdc gdc chip h0 h1
    unfold IsArrival at this
    omega

end Verif.Props
