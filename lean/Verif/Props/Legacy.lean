import Verif.Model.Legacy
import Verif.Spec.Legacy
import Verif.Lemmas.Hit
import Verif.Lemmas.Scan

/-! # The legacy library (C49–C51) -/

namespace Verif.Props

open Verif Verif.Spec

/-! ## C49: agreement of the decoders -/

theorem legacyFields_eq (w : U64) (chip : Int) :
    legacyFields w chip = ⟨(layoutXY chip (pixelXY (decPixaddr w))).1, (layoutXY chip (pixelXY (decPixaddr w))).2,
      decTot w, decToa w, decFtoa w⟩ := by
  unfold legacyFields layoutXY
  split_ifs <;> rfl

theorem legacySpider_eq (w : U64) (chip : Int) : legacySpider w chip = rawSpider w := by
  unfold legacySpider rawSpider
  rw [legacyFields_eq]
  simp only [BitVec.ofInt_natCast]

theorem legacyExtend_eq (sp : U32) (gdc : U64) : legacyExtend sp gdc = extendSpider sp gdc := rfl

theorem clock30_eq (w : U64) : clock30 w = (rawSpider w).toNat := by
  rw [rawSpider_toNat]; unfold clock30 field; omega

/-- The members of a hit made from `legacyFields` are those of the packet. -/
theorem decodes_hit (w : U64) (chip : Int) (tof : U32) (s : U64) :
    Decodes w chip ((legacyFields w chip).hit tof s) := by
  rw [legacyFields_eq]
  unfold Decodes LegacyFields.hit field
  simp only [decTot_eq, decToa_eq, decFtoa_eq, true_and]
  unfold layoutXY
  rw [pixelXY_eq, decPixaddr_toNat]
  simp only [Nat.reducePow]
  split_ifs <;> simp only [Prod.mk.injEq] <;> omega

theorem same_hit_gdc (w tdc gdc : U64) (chip : Int) (tof : U32) (s : U64) :
    SamePixel ((legacyFields w chip).hit tof s) (hitGdc w tdc gdc chip) := by
  rw [legacyFields_eq]; exact ⟨rfl, rfl, rfl, rfl, rfl⟩

theorem same_hit_tdc (w tdc : U64) (chip : Int) (tof : U32) (s : U64) :
    SamePixel ((legacyFields w chip).hit tof s) (hitTdc w tdc chip) := by
  rw [legacyFields_eq]; exact ⟨rfl, rfl, rfl, rfl, rfl⟩

/-- C49 for the constructor of the legacy `Hit`: it agrees with both fast constructors, and with the packet layout. -/
theorem c49_ctor (w tdc gdc tdc' gdc' : U64) (chip : Int) :
    SamePixel (legacyHit w tdc gdc chip) (hitGdc w tdc' gdc' chip) ∧
    SamePixel (legacyHit w tdc gdc chip) (hitTdc w tdc' chip) ∧ Decodes w chip (legacyHit w tdc gdc chip) :=
  ⟨same_hit_gdc .., same_hit_tdc .., decodes_hit ..⟩

/-- C49 for `packetToHitAlt`, whatever the roll-over state. -/
theorem c49_alt (w tdc gdc : U64) (chip : Int) (r : Rollover) :
    SamePixel (packetToHitAlt w r chip).1 (hitGdc w tdc gdc chip) ∧
    SamePixel (packetToHitAlt w r chip).1 (hitTdc w tdc chip) ∧ Decodes w chip (packetToHitAlt w r chip).1 :=
  ⟨same_hit_gdc .., same_hit_tdc .., decodes_hit ..⟩

/-- C49 for `packetToHit`, when it returns.  (Missing: it does not for every packet, `c49_packet_undefined`.) -/
theorem c49_packet_partial (w tdc gdc tdc' gdc' : U64) (chip : Int) (h : Hit) (hok : packetToHit w tdc gdc chip = .ok h) :
    SamePixel h (hitGdc w tdc' gdc' chip) ∧ SamePixel h (hitTdc w tdc' chip) ∧ Decodes w chip h := by
  have : ∃ tof s, h = (legacyFields w chip).hit tof s := by
    unfold packetToHit at hok
    simp only at hok
    split at hok
    · split at hok
      · split at hok
        · injection hok with hok; exact ⟨_, _, hok.symm⟩
        · simp at hok
      · simp at hok
    · injection hok with hok; exact ⟨_, _, hok.symm⟩
  obtain ⟨tof, s, rfl⟩ := this
  exact ⟨same_hit_gdc .., same_hit_tdc .., decodes_hit ..⟩

/-- Legacy arrival time in natural numbers. -/
def legacyArrival (w : U64) (gdc : Nat) : Nat :=
  (gdc / 2 ^ 30 + if clock30 w < gdc % 2 ^ 30 then 1 else 0) % 2 ^ 18 * 2 ^ 30 + clock30 w

theorem legacyExtend_toNat (w gdc : U64) (chip : Int) :
    (legacyExtend (legacySpider w chip) gdc).toNat = legacyArrival w gdc.toNat := by
  rw [legacyExtend_eq, legacySpider_eq, extendSpider_toNat _ _ (rawSpider_lt w), legacyArrival, clock30_eq]
  simp only [Nat.reducePow]
  split_ifs <;> omega

theorem F64_ofInt_big (n : ℕ) (h : 2 ^ 53 ≤ n) : ∀ q, F64.ofInt n = .fin q → 2 ^ 53 ≤ q := by
  intro q hq
  unfold F64.ofInt F64.ofRat at hq
  simp only at hq
  split at hq
  · simp at hq
  · injection hq with hq
    rw [← hq]
    have h1 : rndQ ((2 ^ 53 : ℤ) : ℚ) = ((2 ^ 53 : ℤ) : ℚ) := rndQ_int (by rw [abs_of_nonneg (by norm_num)])
    have h2 : ((2 ^ 53 : ℤ) : ℚ) ≤ (((n : ℕ) : ℤ) : ℚ) := by exact_mod_cast h
    have h3 := rndQ_mono h2
    rw [h1] at h3
    calc (2 : ℚ) ^ 53 = ((2 ^ 53 : ℤ) : ℚ) := by norm_num
      _ ≤ _ := h3

theorem F64_add_big (a b q : ℚ) (ha : 2 ^ 53 ≤ a) (hb : 0 ≤ b) (h : F64.add (.fin a) (.fin b) = .fin q) :
    2 ^ 53 ≤ q := by
  unfold F64.add F64.ofRat at h
  simp only at h
  split at h
  · simp at h
  · injection h with h
    rw [← h]
    have h1 : rndQ ((2 ^ 53 : ℤ) : ℚ) = ((2 ^ 53 : ℤ) : ℚ) := rndQ_int (by rw [abs_of_nonneg (by norm_num)])
    have h2 : ((2 ^ 53 : ℤ) : ℚ) ≤ a + b := by push_cast; linarith
    have h3 := rndQ_mono h2
    rw [h1] at h3
    calc (2 : ℚ) ^ 53 = ((2 ^ 53 : ℤ) : ℚ) := by norm_num
      _ ≤ _ := h3

theorem F64_60th : ∃ b, 0 ≤ b ∧ F64.div (F64.ofRat 1000000000) (F64.ofRat 60) = .fin b := by
  have h1 : F64.ofRat 1000000000 = .fin 1000000000 := by
    have := F64.ofRat_int (n := 1000000000) (by norm_num); exact_mod_cast this
  have h2 : F64.ofRat 60 = .fin 60 := by
    have := F64.ofRat_int (n := 60) (by norm_num); exact_mod_cast this
  rw [h1, h2]
  refine ⟨rndQ (1000000000 / 60), rndQ_nonneg (by norm_num), ?_⟩
  simp only [F64.div]
  rw [if_neg (by norm_num), F64.ofRat_fin]
  rw [abs_of_nonneg (by norm_num)]
  calc (1000000000 / 60 : ℚ) ≤ 2 ^ (30 : ℤ) := by norm_num
    _ ≤ 2 ^ (1000 : ℤ) := zpow_le_zpow_right₀ (by norm_num) (by norm_num)

/-- C49 is false for `packetToHit` as it stands: for every 48-bit trigger time after the arrival of the hit, the
conversion of the time of flight is undefined, and with it the hit. -/
theorem c49_packet_undefined (w tdc gdc : U64) (chip : Int) (ht : tdc.toNat < 2 ^ 48)
    (h : legacyArrival w gdc.toNat < tdc.toNat) : packetToHit w tdc gdc chip = .ub .floatToInt := by
  unfold packetToHit
  simp only
  have hs := legacyExtend_toNat w gdc chip
  generalize legacyExtend (legacySpider w chip) gdc = s at *
  rw [if_pos (by rw [BitVec.lt_def]; omega)]
  have hn : 2 ^ 53 ≤ (s - tdc).toNat := by
    rw [BitVec.toNat_sub]
    simp only [Nat.reducePow] at *
    omega
  obtain ⟨b, hb, hd⟩ := F64_60th
  rw [hd]
  split
  · rename_i n hq
    rw [if_neg]
    intro hlt
    cases ha : F64.ofInt (s - tdc).toNat with
    | nan => rw [ha] at hq; simp [F64.add, F64.toU64?] at hq
    | inf g => rw [ha] at hq; simp [F64.add, F64.toU64?] at hq
    | fin a =>
      rw [ha] at hq
      cases hr : F64.add (.fin a) (.fin b) with
      | nan => rw [hr] at hq; simp [F64.toU64?] at hq
      | inf g => rw [hr] at hq; simp [F64.toU64?] at hq
      | fin q =>
        have hq1 := F64_add_big a b q (F64_ofInt_big _ hn a ha) hb hr
        rw [hr] at hq
        unfold F64.toU64? F64.truncQ at hq
        simp only at hq
        rw [if_pos (le_trans (by norm_num) hq1)] at hq
        have hf : (2 ^ 53 : ℤ) ≤ ⌊q⌋ := by
          rw [Int.le_floor]; push_cast; exact hq1
        generalize ⌊q⌋ = z at *
        by_cases hz : 0 ≤ z ∧ z < 2 ^ 64
        · rw [if_pos hz] at hq
          have hq := Option.some.inj hq
          simp only [Nat.reducePow, Int.reducePow] at *
          omega
        · rw [if_neg hz] at hq
          simp at hq
  · rfl

/-- Such packets exist: a hit at tick 16384 and a trigger at tick 20000. -/
theorem c49_false_packet : packetToHit 0xB000000000000001#64 20000#64 1#64 0 = .ub .floatToInt :=
  c49_packet_undefined _ _ _ _ (by decide) (by decide)

theorem legacyHit_tof (w tdc gdc : U64) (chip : Int) :
    (legacyHit w tdc gdc chip).tof =
      some ((if legacyExtend (legacySpider w chip) gdc < tdc
        then legacyExtend (legacySpider w chip) gdc - tdc + 16666667#64
        else legacyExtend (legacySpider w chip) gdc - tdc).setWidth 32) := by
  simp only [legacyHit, LegacyFields.hit]

theorem tof_before_toNat (s tdc : U64) (h : s.toNat < tdc.toNat) (h2 : tdc.toNat ≤ s.toNat + 16000000) :
    ((s - tdc + 16666667#64).setWidth 32).toNat = s.toNat + 16666667 - tdc.toNat := by
  have := s.isLt
  have := tdc.isLt
  rw [BitVec.toNat_setWidth, BitVec.toNat_add, BitVec.toNat_sub, BitVec.toNat_ofNat]
  generalize s.toNat = a at *
  generalize tdc.toNat = b at *
  have e : (2 ^ 64 - b + a) % 2 ^ 64 = 2 ^ 64 - b + a := Nat.mod_eq_of_lt (by omega)
  rw [e, Nat.mod_eq_of_lt (a := 16666667) (by norm_num)]
  omega

/-- For such a packet the constructor gives a time of flight of 16663051 ticks, though a period of the 60 Hz source is
666667 ticks (its correction is in nanoseconds). -/
theorem c49_ctor_before_trigger (w tdc gdc : U64) (chip : Int) (h : legacyArrival w gdc.toNat < tdc.toNat)
    (h2 : tdc.toNat ≤ legacyArrival w gdc.toNat + 16000000) :
    ∃ t : U32, (legacyHit w tdc gdc chip).tof = some t ∧
      t.toNat + tdc.toNat = legacyArrival w gdc.toNat + 16666667 ∧ 666667 ≤ t.toNat := by
  have hs := legacyExtend_toNat w gdc chip
  refine ⟨_, legacyHit_tof .., ?_⟩
  generalize legacyExtend (legacySpider w chip) gdc = s at *
  rw [if_pos (by rw [BitVec.lt_def]; omega), tof_before_toNat _ _ (by omega) (by omega)]
  omega

/-- At or after the trigger the two older decoders give the same hit, and its time of flight is the difference
modulo 2^32. -/
theorem c49_after_trigger (w tdc gdc : U64) (chip : Int) (h : tdc.toNat ≤ legacyArrival w gdc.toNat) :
    packetToHit w tdc gdc chip = .ok (legacyHit w tdc gdc chip) ∧
    ∃ t : U32, (legacyHit w tdc gdc chip).tof = some t ∧
      t.toNat = (legacyArrival w gdc.toNat - tdc.toNat) % 2 ^ 32 := by
  have hs := legacyExtend_toNat w gdc chip
  have hlt : ¬ legacyExtend (legacySpider w chip) gdc < tdc := by rw [BitVec.lt_def]; omega
  constructor
  · unfold packetToHit legacyHit
    simp only
    rw [if_neg hlt, if_neg hlt]
  · refine ⟨_, legacyHit_tof .., ?_⟩
    rw [if_neg hlt]
    generalize legacyExtend (legacySpider w chip) gdc = s at *
    have := s.isLt
    have := tdc.isLt
    bits_to_nat
    simp only [Nat.reducePow] at *
    omega

example : legacyArrival 0xB000000000000001#64 1 = 16384 := by decide

/-- The arrival times differ between the libraries exactly where the fast one subtracts a period of the 30-bit clock. -/
theorem c49_arrival (w tdc gdc : U64) (chip : Int) :
    (hitGdc w tdc gdc chip).spidertime =
      if 40000000 ≤ ((legacyHit w tdc gdc chip).spidertime - gdc).toNat
      then (legacyHit w tdc gdc chip).spidertime - 1073741824#64 else (legacyHit w tdc gdc chip).spidertime := by
  rw [hitGdc_spidertime, fixSpider_eq]
  have : (legacyHit w tdc gdc chip).spidertime = extendSpider (rawSpider w) gdc := by
    simp only [legacyHit, LegacyFields.hit]
    rw [legacyExtend_eq, legacySpider_eq]
  rw [this]

/-! ## C50: the roll-over counter -/

/-- `packetToHitAlt` over a list of packets, each with its chip. -/
def altRun : Rollover → List (Int × U64) → List Hit
  | _, [] => []
  | r, p :: ps => (packetToHitAlt p.2 r p.1).1 :: altRun (packetToHitAlt p.2 r p.1).2 ps

theorem next_toNat (r : Rollover) (sp : U64) (hp : r.prev.toNat < 2 ^ 30) (hs : sp.toNat < 2 ^ 30) :
    (r.next sp).toNat =
      if sp.toNat + 2 ^ 29 < r.prev.toNat then (r.counter.toNat + 1) % 2 ^ 64
      else if r.prev.toNat + 2 ^ 29 < sp.toNat then r.counter.toNat - 1 else r.counter.toNat := by
  obtain ⟨c, p⟩ := r
  simp only at *
  have hc := c.isLt
  have k : (536870912#64 : U64).toNat = 2 ^ 29 := by decide
  have k0 : (0#64 : U64).toNat = 0 := by decide
  have k1 : (1#64 : U64).toNat = 1 := by decide
  unfold Rollover.next
  simp only [GT.gt, BitVec.lt_def, BitVec.toNat_sub, k, k0]
  by_cases h : sp.toNat < p.toNat
  · rw [if_pos h]
    have e : (2 ^ 64 - sp.toNat + p.toNat) % 2 ^ 64 = p.toNat - sp.toNat := by omega
    rw [e]
    by_cases h2 : 2 ^ 29 < p.toNat - sp.toNat
    · rw [if_pos h2, if_pos (by omega), BitVec.toNat_add, k1]
    · rw [if_neg h2, if_neg (by omega), if_neg (by omega)]
  · rw [if_neg h]
    have e : (2 ^ 64 - p.toNat + sp.toNat) % 2 ^ 64 = sp.toNat - p.toNat := by omega
    have g : ¬ sp.toNat + 2 ^ 29 < p.toNat := by omega
    rw [e, if_neg g]
    by_cases h2 : 2 ^ 29 < sp.toNat - p.toNat
    · have g2 : p.toNat + 2 ^ 29 < sp.toNat := by omega
      rw [if_pos h2, if_pos g2]
      by_cases h3 : 0 < c.toNat
      · rw [if_pos h3, BitVec.toNat_sub, k1]; omega
      · rw [if_neg h3]; omega
    · rw [if_neg h2, if_neg (by omega)]

theorem alt_toNat (w : U64) (r : Rollover) (chip : Int) :
    (packetToHitAlt w r chip).2 = ⟨r.next (BitVec.ofNat 64 (clock30 w)), BitVec.ofNat 64 (clock30 w)⟩ ∧
    (packetToHitAlt w r chip).1.spidertime.toNat =
      (clock30 w + (r.next (BitVec.ofNat 64 (clock30 w))).toNat * 2 ^ 30) % 2 ^ 64 ∧
    ∃ f : U32, (packetToHitAlt w r chip).1.tof = some f ∧
      f.toNat = (packetToHitAlt w r chip).1.spidertime.toNat % 666667 := by
  have hsp : (legacySpider w chip).setWidth 64 = BitVec.ofNat 64 (clock30 w) := by
    apply BitVec.eq_of_toNat_eq
    rw [BitVec.toNat_setWidth, legacySpider_eq, ← clock30_eq, BitVec.toNat_ofNat]
  have hlt : clock30 w < 2 ^ 30 := by rw [clock30_eq]; exact rawSpider_lt w
  have k : (1073741824#64 : U64).toNat = 2 ^ 30 := by decide
  have k6 : (666667#64 : U64).toNat = 666667 := by decide
  have e : packetToHitAlt w r chip = ((legacyFields w chip).hit
      (((BitVec.ofNat 64 (clock30 w) + r.next (BitVec.ofNat 64 (clock30 w)) * 1073741824#64) % 666667#64).setWidth 32)
      (BitVec.ofNat 64 (clock30 w) + r.next (BitVec.ofNat 64 (clock30 w)) * 1073741824#64),
      ⟨r.next (BitVec.ofNat 64 (clock30 w)), BitVec.ofNat 64 (clock30 w)⟩) := by
    unfold packetToHitAlt
    simp only
    rw [hsp]
  rw [e]
  simp only [LegacyFields.hit]
  refine ⟨trivial, ?_, _, rfl, ?_⟩
  · rw [BitVec.toNat_add, BitVec.toNat_mul, BitVec.toNat_ofNat, k]; omega
  · rw [BitVec.toNat_setWidth, BitVec.toNat_umod, k6]; omega

/-- One step of the counter: it follows the true time. -/
theorem alt_step (t u : Nat) (w : U64) (chip : Int) (h1 : u < t + 2 ^ 29) (h2 : t < u + 2 ^ 29) (hu : u < 2 ^ 64)
    (ht : t < 2 ^ 64) (hw : clock30 w = u % 2 ^ 30) :
    let r : Rollover := ⟨BitVec.ofNat 64 (t / 2 ^ 30), BitVec.ofNat 64 (t % 2 ^ 30)⟩
    (packetToHitAlt w r chip).2 = ⟨BitVec.ofNat 64 (u / 2 ^ 30), BitVec.ofNat 64 (u % 2 ^ 30)⟩ ∧
    (packetToHitAlt w r chip).1.spidertime.toNat = u ∧
    ∃ f : U32, (packetToHitAlt w r chip).1.tof = some f ∧ f.toNat = u % 666667 := by
  intro r
  have hp : r.prev.toNat = t % 2 ^ 30 := by simp only [r]; rw [BitVec.toNat_ofNat]; omega
  have hc : r.counter.toNat = t / 2 ^ 30 := by simp only [r]; rw [BitVec.toNat_ofNat]; omega
  have hs : (BitVec.ofNat 64 (u % 2 ^ 30)).toNat = u % 2 ^ 30 := by rw [BitVec.toNat_ofNat]; omega
  have hn : (r.next (BitVec.ofNat 64 (u % 2 ^ 30))).toNat = u / 2 ^ 30 := by
    rw [next_toNat _ _ (by omega) (by omega), hp, hc, hs]
    by_cases a : u % 2 ^ 30 + 2 ^ 29 < t % 2 ^ 30
    · rw [if_pos a]; omega
    · rw [if_neg a]
      by_cases b : t % 2 ^ 30 + 2 ^ 29 < u % 2 ^ 30
      · rw [if_pos b]; omega
      · rw [if_neg b]; omega
  obtain ⟨ha, hb, f, hf, hf'⟩ := alt_toNat w r chip
  rw [hw] at ha hb
  rw [hn] at hb
  have hu' : (packetToHitAlt w r chip).1.spidertime.toNat = u := by rw [hb]; omega
  refine ⟨?_, hu', f, hf, by rw [hf', hu']⟩
  rw [ha]
  congr 1
  apply BitVec.eq_of_toNat_eq
  rw [hn, BitVec.toNat_ofNat]
  omega

theorem alt_run (t : Nat) (us : List Nat) (ps : List (Int × U64)) (ht : t < 2 ^ 64) (hstep : SlowSteps t us)
    (hus : ∀ u ∈ us, u < 2 ^ 64) (hps : ps.map (fun p => clock30 p.2) = us.map (· % 2 ^ 30)) :
    let hits := altRun ⟨BitVec.ofNat 64 (t / 2 ^ 30), BitVec.ofNat 64 (t % 2 ^ 30)⟩ ps
    hits.map (fun h => h.spidertime.toNat) = us ∧
    hits.map (fun h => h.tof.map BitVec.toNat) = us.map (fun u => some (u % 666667)) := by
  induction hstep generalizing ps with
  | nil t =>
    rcases ps with _ | ⟨p, ps⟩
    · exact ⟨rfl, rfl⟩
    · simp at hps
  | cons t u us h1 h2 _ ih =>
    rcases ps with _ | ⟨p, ps⟩
    · simp at hps
    · rw [List.map_cons, List.map_cons, List.cons.injEq] at hps
      have hu := hus u (by simp)
      obtain ⟨ha, hb, f, hf, hf'⟩ := alt_step t u p.2 p.1 h1 h2 hu ht hps.1
      obtain ⟨i1, i2⟩ := ih ps hu (fun v hv => hus v (by simp [hv])) hps.2
      simp only [altRun, List.map_cons]
      rw [ha, hb, i1, i2, hf]
      exact ⟨rfl, by rw [Option.map_some, hf']⟩

/-- C50: from the initial state (both zero) the reconstructed times are the true ones, for every history of true times
that starts in the first half-period and whose steps are smaller than half a period; the time of flight is the
true time modulo 666667.  The first time may be anywhere below `2^29` (the initial state stands for time 0). -/
theorem c50_reconstructs (ts : List Nat) (ps : List (Int × U64)) (h : SlowSteps 0 ts) (hts : ∀ t ∈ ts, t < 2 ^ 64)
    (hps : ps.map (fun p => clock30 p.2) = ts.map (· % 2 ^ 30)) :
    (altRun ⟨0#64, 0#64⟩ ps).map (fun h => h.spidertime.toNat) = ts ∧
    (altRun ⟨0#64, 0#64⟩ ps).map (fun h => h.tof.map BitVec.toNat) = ts.map (fun t => some (t % 666667)) := by
  have := alt_run 0 ts ps (by norm_num) h hts hps
  rwa [Nat.zero_div, Nat.zero_mod] at this

/-- A first hit anywhere in the first period also leads into the right state. -/
theorem alt_first (t : Nat) (w : U64) (chip : Int) (ht : t < 2 ^ 30) (hw : clock30 w = t) :
    (packetToHitAlt w ⟨0#64, 0#64⟩ chip).2 = ⟨BitVec.ofNat 64 (t / 2 ^ 30), BitVec.ofNat 64 (t % 2 ^ 30)⟩ ∧
    (packetToHitAlt w ⟨0#64, 0#64⟩ chip).1.spidertime.toNat = t ∧
    ∃ f : U32, (packetToHitAlt w ⟨0#64, 0#64⟩ chip).1.tof = some f ∧ f.toNat = t % 666667 := by
  have k0 : (0#64 : U64).toNat = 0 := by decide
  have hs : (BitVec.ofNat 64 t).toNat = t := by rw [BitVec.toNat_ofNat]; omega
  have hn : (Rollover.next ⟨0#64, 0#64⟩ (BitVec.ofNat 64 t)).toNat = 0 := by
    rw [next_toNat _ _ (by rw [k0]; norm_num) (by omega)]
    simp only [k0]
    rw [if_neg (by omega)]
    split_ifs <;> omega
  obtain ⟨ha, hb, f, hf, hf'⟩ := alt_toNat w ⟨0#64, 0#64⟩ chip
  rw [hw] at ha hb
  rw [hn] at hb
  have ht' : (packetToHitAlt w ⟨0#64, 0#64⟩ chip).1.spidertime.toNat = t := by rw [hb]; omega
  refine ⟨?_, ht', f, hf, by rw [hf', ht']⟩
  rw [ha, Nat.div_eq_of_lt ht, Nat.mod_eq_of_lt ht]
  congr 1
  apply BitVec.eq_of_toNat_eq
  rw [hn, BitVec.toNat_ofNat]

/-- C50 as stated: the first true time is below `2^30`. -/
theorem c50_first_period (t : Nat) (ts : List Nat) (ps : List (Int × U64)) (ht : t < 2 ^ 30) (h : SlowSteps t ts)
    (hts : ∀ u ∈ ts, u < 2 ^ 64) (hps : ps.map (fun p => clock30 p.2) = (t :: ts).map (· % 2 ^ 30)) :
    (altRun ⟨0#64, 0#64⟩ ps).map (fun h => h.spidertime.toNat) = t :: ts ∧
    (altRun ⟨0#64, 0#64⟩ ps).map (fun h => h.tof.map BitVec.toNat) = (t :: ts).map (fun t => some (t % 666667)) := by
  rcases ps with _ | ⟨p, ps⟩
  · simp at hps
  · rw [List.map_cons, List.map_cons, List.cons.injEq, Nat.mod_eq_of_lt ht] at hps
    obtain ⟨ha, hb, f, hf, hf'⟩ := alt_first t p.2 p.1 ht hps.1
    obtain ⟨i1, i2⟩ := alt_run t ts ps (by omega) h hts hps.2
    simp only [altRun, List.map_cons]
    rw [ha, hb, i1, i2, hf]
    exact ⟨rfl, by rw [Option.map_some, hf']⟩

/-- A history that goes over the end of the 30-bit clock, back, and over it again. -/
example : SlowSteps 1073741000 [1073742000, 1073741500, 1500000000] := by
  refine .cons _ _ _ ?_ ?_ (.cons _ _ _ ?_ ?_ (.cons _ _ _ ?_ ?_ (.nil _))) <;> norm_num

/-- The bound on the steps is sharp: from time `2^29` (clock `2^29`) a step of exactly `2^29` to `2^30` (clock 0) is
taken for a step back to 0. -/
theorem c50_sharp : ∃ ps : List (Int × U64),
    ps.map (fun p => clock30 p.2) = [536870912, 1073741824].map (· % 2 ^ 30) ∧
    (altRun ⟨0#64, 0#64⟩ ps).map (fun h => h.spidertime.toNat) = [536870912, 0] :=
  ⟨[(0, 0xB000000000008000#64), (0, 0xB000000000000000#64)], by decide, by decide⟩

/-! ## C51: reads of the legacy readers -/

theorem complete_header (lf : Bool) (w : U64) (ws : List U64) (h : StartsTPX w) :
    Complete lf (w :: ws) ↔
      (lf = true ∧ ws = []) ∨ (field w 48 16 / 8 ≤ ws.length ∧ Complete lf (ws.drop (field w 48 16 / 8))) := by
  constructor
  · intro hc
    generalize hv : w :: ws = v at hc
    cases hc with
    | nil => simp at hv
    | last w' hl => simp only [List.cons.injEq] at hv; exact .inl ⟨hl, hv.2⟩
    | skip w' ws' hn _ => simp only [List.cons.injEq] at hv; exact absurd (hv.1 ▸ h) hn
    | batch w' ps ws' _ hlen hc =>
      simp only [List.cons.injEq] at hv
      obtain ⟨rfl, rfl⟩ := hv
      right
      rw [← hlen, List.drop_left]
      exact ⟨by simp, hc⟩
  · rintro (⟨hl, rfl⟩ | ⟨hlen, hc⟩)
    · exact .last w hl
    · have := Complete.batch (lastFree := lf) w (ws.take (field w 48 16 / 8)) _ h (by simp [hlen]) hc
      rwa [List.take_append_drop] at this

theorem complete_skip (lf : Bool) (w : U64) (ws : List U64) (h : ¬ StartsTPX w) :
    Complete lf (w :: ws) ↔ Complete lf ws := by
  constructor
  · intro hc
    generalize hv : w :: ws = v at hc
    cases hc with
    | nil => simp at hv
    | last w' hl => simp only [List.cons.injEq] at hv; rw [hv.2]; exact .nil
    | skip w' ws' hn hc => simp only [List.cons.injEq] at hv; rw [hv.2]; exact hc
    | batch w' ps ws' hs _ _ => simp only [List.cons.injEq] at hv; exact absurd (hv.1 ▸ hs) h
  · exact .skip w ws h

/-- Packets of one batch. -/
theorem readPackets_eq (buf : Bytes) (chip : Int) (n pos : Nat) (s : LegacyState) :
    readPackets buf chip n pos s =
      if n ≤ (wordsOf (buf.drop (pos + 8))).length then
        .ok (pos + 8 * n, ((wordsOf (buf.drop (pos + 8))).take n).foldl (fun s w => readPacket chip w s) s)
      else .ub .oobRead := by
  induction n generalizing pos s with
  | zero => simp [readPackets]
  | succ n ih =>
    rw [readPackets]
    by_cases h : pos + 16 ≤ buf.length
    · rw [wordAt_eq _ _ (by omega)]
      simp only
      rw [ih, wordsOf_cons (buf.drop (pos + 8)) (by rw [List.length_drop]; omega), List.drop_drop]
      simp only [List.length_cons, Nat.add_le_add_iff_right, List.take_succ_cons, List.foldl_cons]
      have e : pos + 8 + 8 * n = pos + 8 * (n + 1) := by omega
      rw [e]
    · rw [wordAt_none _ _ (by omega), wordsOf_short (buf.drop (pos + 8)) (by rw [List.length_drop]; omega)]
      simp

theorem parsePackets_eq (buf : Bytes) (chip : Int) (n pos : Nat) (s : LegacyState) (hp : pos + 8 ≤ buf.length) :
    parsePackets buf chip n pos s =
      if n ≤ (wordsOf (buf.drop (pos + 8))).length then
        .ok (pos + 8 * n, ((wordsOf (buf.drop (pos + 8))).take n).foldl (fun s w => parsePacket chip w s) s)
      else .ub .oobRead := by
  induction n generalizing pos s with
  | zero => simp [parsePackets]
  | succ n ih =>
    rw [parsePackets, if_neg (by omega)]
    by_cases h : pos + 16 ≤ buf.length
    · rw [wordAt_eq _ _ (by omega)]
      simp only
      rw [ih _ _ (by omega), wordsOf_cons (buf.drop (pos + 8)) (by rw [List.length_drop]; omega), List.drop_drop]
      simp only [List.length_cons, Nat.add_le_add_iff_right, List.take_succ_cons, List.foldl_cons]
      have e : pos + 8 + 8 * n = pos + 8 * (n + 1) := by omega
      rw [e]
    · rw [wordAt_none _ _ (by omega), wordsOf_short (buf.drop (pos + 8)) (by rw [List.length_drop]; omega)]
      simp

theorem readLoop_cases (buf : Bytes) (fuel pos : Nat) (s : LegacyState) (hp : pos ≤ buf.length)
    (hf : (buf.length - pos) / 8 < fuel) :
    (((buf.length - pos) % 8 = 0 ∧ Complete false (wordsOf (buf.drop pos))) ∧ ∃ s', readLoop buf fuel pos s = .ok s') ∨
    (¬ ((buf.length - pos) % 8 = 0 ∧ Complete false (wordsOf (buf.drop pos))) ∧
      readLoop buf fuel pos s = .ub .oobRead) := by
  induction fuel generalizing pos s with
  | zero => omega
  | succ fuel ih =>
    rw [readLoop]
    by_cases he : pos = buf.length
    · left
      rw [if_pos he, wordsOf_short (buf.drop pos) (by rw [List.length_drop]; omega)]
      exact ⟨⟨by omega, .nil⟩, s, rfl⟩
    · rw [if_neg he]
      by_cases h8 : pos + 8 ≤ buf.length
      · rw [wordAt_eq _ _ h8]
        simp only
        rw [wordsOf_cons (buf.drop pos) (by rw [List.length_drop]; omega), List.drop_drop]
        generalize headWord (buf.drop pos) = w
        have hlen : (wordsOf (buf.drop (pos + 8))).length = (buf.length - (pos + 8)) / 8 := by
          rw [wordsOf_length, List.length_drop]
        by_cases hh : StartsTPX w
        · rw [if_pos ((isHeader_iff_starts w).mpr hh), readPackets_eq, headerPackets_field, complete_header _ _ _ hh]
          generalize field w 48 16 / 8 = n
          by_cases hn : n ≤ (wordsOf (buf.drop (pos + 8))).length
          · rw [if_pos hn]
            simp only
            have e : wordsOf (buf.drop (pos + 8 * n + 8)) = (wordsOf (buf.drop (pos + 8))).drop n := by
              rw [← wordsOf_drop, List.drop_drop]; congr 2; omega
            rcases ih (pos + 8 * n + 8) _ (by omega) (by omega) with ⟨⟨h1, h2⟩, h3⟩ | ⟨h1, h2⟩
            · rw [e] at h2
              exact .inl ⟨⟨by omega, .inr ⟨hn, h2⟩⟩, h3⟩
            · rw [e] at h1
              refine .inr ⟨?_, h2⟩
              rintro ⟨ha, hb | hb⟩
              · simp at hb
              · exact h1 ⟨by omega, hb.2⟩
          · rw [if_neg hn]
            refine .inr ⟨?_, rfl⟩
            rintro ⟨_, hb | hb⟩
            · simp at hb
            · exact hn hb.1
        · rw [if_neg (by rw [isHeader_iff_starts]; exact hh), complete_skip _ _ _ hh]
          have := ih (pos + 8) s (by omega) (by omega)
          have e : (buf.length - (pos + 8)) % 8 = (buf.length - pos) % 8 := by omega
          rwa [e] at this
      · rw [wordAt_none _ _ (by omega)]
        exact .inr ⟨fun h => by omega, rfl⟩

/-- C51, exactly, for `readTimepix3RawData`: it stays in the buffer iff the length is a multiple of eight and every
batch found is complete; otherwise it reads outside. -/
theorem c51_read_iff (buf : Bytes) :
    ((∃ hits, readTimepix3RawData buf = .ok hits) ↔ (buf.length % 8 = 0 ∧ Complete false (wordsOf buf))) ∧
    (readTimepix3RawData buf = .ub .oobRead ↔ ¬ (buf.length % 8 = 0 ∧ Complete false (wordsOf buf))) := by
  have := readLoop_cases buf (buf.length / 8 + 2) 0 LegacyState.init (by omega) (by omega)
  rw [List.drop_zero, Nat.sub_zero] at this
  unfold readTimepix3RawData
  rcases this with ⟨h, s', hs⟩ | ⟨h, hs⟩
  · rw [hs]; simp [Res.bind, h]
  · rw [hs]
    constructor
    · exact ⟨fun ⟨_, hh⟩ => by simp [Res.bind] at hh, fun hh => absurd hh h⟩
    · exact ⟨fun _ => h, fun _ => rfl⟩

theorem parseLoop_cases (buf : Bytes) (fuel pos : Nat) (s : LegacyState) (hp : pos ≤ buf.length) (hm : pos % 8 = 0)
    (hf : (buf.length - pos) / 8 < fuel) :
    (Complete (buf.length % 8 == 0) (wordsOf (buf.drop pos)) ∧ ∃ s', parseLoop buf fuel pos s = .ok s') ∨
    (¬ Complete (buf.length % 8 == 0) (wordsOf (buf.drop pos)) ∧ parseLoop buf fuel pos s = .ub .oobRead) := by
  induction fuel generalizing pos s with
  | zero => omega
  | succ fuel ih =>
    rw [parseLoop]
    by_cases he : pos + 8 < buf.length
    · rw [if_pos he, wordAt_eq _ _ (by omega)]
      simp only
      rw [wordsOf_cons (buf.drop pos) (by rw [List.length_drop]; omega), List.drop_drop]
      generalize headWord (buf.drop pos) = w
      have hlen : (wordsOf (buf.drop (pos + 8))).length = (buf.length - (pos + 8)) / 8 := by
        rw [wordsOf_length, List.length_drop]
      have hnl : ¬ ((buf.length % 8 == 0) = true ∧ wordsOf (buf.drop (pos + 8)) = []) := by
        rintro ⟨h1, h2⟩
        rw [h2] at hlen
        rw [beq_iff_eq] at h1
        simp only [List.length_nil] at hlen
        omega
      by_cases hh : StartsTPX w
      · rw [if_pos ((isHeader_iff_starts w).mpr hh), parsePackets_eq _ _ _ _ _ (by omega), headerPackets_field,
          complete_header _ _ _ hh]
        generalize field w 48 16 / 8 = n
        by_cases hn : n ≤ (wordsOf (buf.drop (pos + 8))).length
        · rw [if_pos hn]
          simp only
          have e : wordsOf (buf.drop (pos + 8 * n + 8)) = (wordsOf (buf.drop (pos + 8))).drop n := by
            rw [← wordsOf_drop, List.drop_drop]; congr 2; omega
          rcases ih (pos + 8 * n + 8) _ (by omega) (by omega) (by omega) with ⟨h2, h3⟩ | ⟨h1, h2⟩
          · rw [e] at h2
            exact .inl ⟨.inr ⟨hn, h2⟩, h3⟩
          · rw [e] at h1
            refine .inr ⟨?_, h2⟩
            rintro (hb | hb)
            · exact hnl hb
            · exact h1 hb.2
        · rw [if_neg hn]
          refine .inr ⟨?_, rfl⟩
          rintro (hb | hb)
          · exact hnl hb
          · exact hn hb.1
      · rw [if_neg (by rw [isHeader_iff_starts]; exact hh), complete_skip _ _ _ hh]
        exact ih (pos + 8) s (by omega) (by omega) (by omega)
    · rw [if_neg he]
      left
      refine ⟨?_, s, rfl⟩
      by_cases h8 : pos + 8 = buf.length
      · rw [wordsOf_cons (buf.drop pos) (by rw [List.length_drop]; omega), List.drop_drop,
          wordsOf_short (buf.drop (pos + 8)) (by rw [List.length_drop]; omega)]
        exact .last _ (by rw [beq_iff_eq]; omega)
      · rw [wordsOf_short (buf.drop pos) (by rw [List.length_drop]; omega)]
        exact .nil

/-- C51, exactly, for `parseRawBytesToHits`: it stays in the buffer iff every batch found is complete; the last word of a
buffer whose length is a multiple of eight is not looked at. -/
theorem c51_parse_iff (buf : Bytes) :
    ((∃ hits, parseRawBytesToHits buf = .ok hits) ↔ Complete (buf.length % 8 == 0) (wordsOf buf)) ∧
    (parseRawBytesToHits buf = .ub .oobRead ↔ ¬ Complete (buf.length % 8 == 0) (wordsOf buf)) := by
  have := parseLoop_cases buf (buf.length / 8 + 2) 0 LegacyState.init (by omega) (by omega) (by omega)
  rw [List.drop_zero] at this
  unfold parseRawBytesToHits
  rcases this with ⟨h, s', hs⟩ | ⟨h, hs⟩
  · rw [hs]; simp [Res.bind, h]
  · rw [hs]
    constructor
    · exact ⟨fun ⟨_, hh⟩ => by simp [Res.bind] at hh, fun hh => absurd hh h⟩
    · exact ⟨fun _ => h, fun _ => rfl⟩

theorem complete_stream (lf : Bool) (cs : List Chunk) (h : ∀ c ∈ cs, c.WellFormed) : Complete lf (streamWords cs) := by
  induction cs with
  | nil => exact .nil
  | cons c cs ih =>
    rw [streamWords_cons]
    have hc := h c (by simp)
    refine .batch _ _ _ hc.1 ?_ (ih fun d hd => h d (by simp [hd]))
    rw [hc.2, Nat.mul_div_cancel_left _ (by omega)]

/-- C51 on complete streams: neither reader leaves the buffer. -/
theorem c51_stream_partial (cs : List Chunk) (h : ∀ c ∈ cs, c.WellFormed) :
    (∃ hits, readTimepix3RawData (streamBytes cs) = .ok hits) ∧
    (∃ hits, parseRawBytesToHits (streamBytes cs) = .ok hits) := by
  have hl : (streamBytes cs).length % 8 = 0 := by rw [streamBytes_length]; omega
  refine ⟨(c51_read_iff _).1.mpr ⟨hl, ?_⟩, (c51_parse_iff _).1.mpr ?_⟩
  · rw [wordsOf_streamBytes]; exact complete_stream _ cs h
  · rw [wordsOf_streamBytes]; exact complete_stream _ cs h

example : (⟨0x0010000033585054#64, [0xB000000000000001#64, 0x6F00000000000001#64]⟩ : Chunk).WellFormed := by decide

/-- C51 is false: a file that ends within a word makes `readTimepix3RawData` read outside, whatever it contains. -/
theorem c51_false_length (buf : Bytes) (h : buf.length % 8 ≠ 0) : readTimepix3RawData buf = .ub .oobRead :=
  (c51_read_iff buf).2.mpr fun hc => h hc.1

/-- C51 is false: a last batch with fewer packets than announced (a file that was cut, or is still being written) makes
both readers read outside. -/
theorem c51_false_truncated (cs : List Chunk) (hcs : ∀ c ∈ cs, c.WellFormed) (w : U64) (ps : List U64) (hw : StartsTPX w)
    (hps : ps.length < field w 48 16 / 8) (hne : ps ≠ []) :
    let buf := (streamWords cs ++ w :: ps).flatMap bytesOf
    readTimepix3RawData buf = .ub .oobRead ∧ parseRawBytesToHits buf = .ub .oobRead := by
  intro buf
  have key : ∀ lf, ¬ Complete lf (wordsOf buf) := by
    intro lf
    rw [wordsOf_flatMap]
    induction cs with
    | nil =>
      rw [streamWords, List.flatMap_nil, List.nil_append, complete_header _ _ _ hw]
      rintro (⟨_, h⟩ | ⟨h, _⟩)
      · exact hne h
      · omega
    | cons c cs ih =>
      have hc := hcs c (by simp)
      have e : streamWords (c :: cs) ++ w :: ps = c.header :: (c.packets ++ (streamWords cs ++ w :: ps)) := by
        rw [streamWords_cons]; simp
      rw [e, complete_header _ _ _ hc.1]
      rintro (⟨_, h⟩ | ⟨_, h⟩)
      · simp at h
      · rw [hc.2, Nat.mul_div_cancel_left _ (by omega), List.drop_left] at h
        exact ih (fun d hd => hcs d (by simp [hd])) h
  exact ⟨(c51_read_iff buf).2.mpr fun hc => key _ hc.2, (c51_parse_iff buf).2.mpr (key _)⟩

end Verif.Props
