import Verif.Spec.Stream
import Verif.Lemmas.Words
import Verif.Model.Pipeline

/-! Lemmas about the packet loop and the header scan. -/

namespace Verif

open Spec

/-! ### Packet types -/

theorem isTdc_iff (w : U64) : isTdc w = true ↔ IsTriggerPacket w := by
  unfold isTdc IsTriggerPacket field
  rw [beq_iff_eq, ← BitVec.toNat_inj, byteOf_toNat]
  rfl

theorem isGdc_iff (w : U64) : isGdc w = true ↔ IsGlobalPacket w := by
  unfold isGdc IsGlobalPacket kind field
  rw [beq_iff_eq, ← BitVec.toNat_inj]
  bits_to_nat
  rw [byteOf_toNat]
  omega

theorem isHit_iff (w : U64) : isHit w = true ↔ IsHitPacket w := by
  unfold isHit IsHitPacket kind field
  rw [beq_iff_eq, ← BitVec.toNat_inj]
  bits_to_nat
  rw [byteOf_toNat]
  omega

theorem trigger_not_hit (w : U64) : IsTriggerPacket w → ¬ IsHitPacket w ∧ ¬ IsGlobalPacket w := by
  unfold IsTriggerPacket IsHitPacket IsGlobalPacket kind field
  omega

theorem global_not_hit (w : U64) : IsGlobalPacket w → ¬ IsHitPacket w := by
  unfold IsHitPacket IsGlobalPacket kind field
  omega

/-! ### Timestamps -/

/-- Times of a model clock. -/
def Clock.times (c : Clock) : Times := ⟨c.tdc.toNat, c.gdc.toNat, c.timer.toNat⟩

theorem trig_arith (g m : Nat) (hm : m < 2 ^ 32) :
    (g / 2 ^ 32 % 2 ^ 16 + if m < g % 2 ^ 32 then 1 else 0) % 2 ^ 16 * 2 ^ 32 + m = triggerTime m g := by
  unfold triggerTime
  simp only [Nat.reducePow] at *
  split_ifs <;> omega

theorem updateTdcGdc_toNat (w gdc : U64) :
    (updateTdcGdc w gdc).toNat = triggerTime (field w 12 32) gdc.toNat := by
  unfold updateTdcGdc field
  simp only
  have hm : ((w >>> 12) &&& 0xFFFFFFFF#64).toNat = w.toNat / 2 ^ 12 % 2 ^ 32 := by bits_to_nat
  have hl : (gdc &&& 0xFFFFFFFF#64).toNat = gdc.toNat % 2 ^ 32 := by bits_to_nat
  have hh : ((gdc >>> 32) &&& 0xFFFF#64).toNat = gdc.toNat / 2 ^ 32 % 2 ^ 16 := by bits_to_nat
  have hm' : w.toNat / 2 ^ 12 % 2 ^ 32 < 2 ^ 32 := by omega
  rw [← trig_arith _ _ hm', ← hm, ← hl, ← hh]
  rw [← hm] at hm'
  have hh' : (gdc >>> 32 &&& 0xFFFF#64).toNat < 2 ^ 16 := by omega
  generalize (w >>> 12) &&& 0xFFFFFFFF#64 = m at *
  generalize gdc &&& 0xFFFFFFFF#64 = l at *
  generalize (gdc >>> 32) &&& 0xFFFF#64 = h at *
  clear hm hl hh
  rw [BitVec.toNat_or, or_eq_add _ _ 32]
  · congr 1
    simp only [BitVec.lt_def]
    split_ifs
    · bits_to_nat
      simp only [Nat.reducePow] at *
      omega
    · bits_to_nat
      simp only [Nat.reducePow] at *
      omega
  · bits_to_nat; omega
  · exact hm'

theorem roll_arith (t m : Nat) :
    (t / 2 ^ 32 % 2 ^ 16 + if m < t % 2 ^ 32 ∧ 2 ^ 31 < t % 2 ^ 32 - m then 1 else 0) * 2 ^ 32 + m =
      rollTime m t := by
  unfold rollTime
  simp only [Nat.reducePow] at *
  split_ifs <;> omega

theorem updateTdcOnly_toNat (w tdc : U64) :
    (updateTdcOnly w tdc).toNat = rollTime (field w 12 32) tdc.toNat := by
  unfold updateTdcOnly field
  simp only
  have hm : ((w >>> 12) &&& 0xFFFFFFFF#64).toNat = w.toNat / 2 ^ 12 % 2 ^ 32 := by bits_to_nat
  have hl : (tdc &&& 0xFFFFFFFF#64).toNat = tdc.toNat % 2 ^ 32 := by bits_to_nat
  have hh : (tdc &&& 0xFFFF00000000#64).toNat = tdc.toNat / 2 ^ 32 % 2 ^ 16 * 2 ^ 32 := by bits_to_nat
  have hm' : w.toNat / 2 ^ 12 % 2 ^ 32 < 2 ^ 32 := by omega
  rw [← roll_arith, ← hm, ← hl]
  rw [← hm] at hm'
  have hl' : (tdc &&& 0xFFFFFFFF#64).toNat < 2 ^ 32 := by omega
  generalize (w >>> 12) &&& 0xFFFFFFFF#64 = m at *
  generalize tdc &&& 0xFFFFFFFF#64 = l at *
  have hh' : tdc.toNat / 2 ^ 32 % 2 ^ 16 < 2 ^ 16 := by omega
  generalize tdc &&& 0xFFFF00000000#64 = h at *
  generalize tdc.toNat / 2 ^ 32 % 2 ^ 16 = k at *
  clear hm hl
  have hsub : m.toNat < l.toNat → (l - m).toNat = l.toNat - m.toNat := by
    intro hlt
    rw [BitVec.toNat_sub]
    omega
  have h31 : (0x80000000#64 : U64).toNat = 2 ^ 31 := by decide
  have h32 : (0x100000000#64 : U64).toNat = 2 ^ 32 := by decide
  have hadd : (h + 0x100000000#64).toNat = (k + 1) * 2 ^ 32 := by
    rw [BitVec.toNat_add, h32, hh]
    omega
  have hcond : (m < l ∧ 0x80000000#64 < l - m) ↔ (m.toNat < l.toNat ∧ 2 ^ 31 < l.toNat - m.toNat) := by
    rw [BitVec.lt_def, BitVec.lt_def, h31]
    constructor
    · rintro ⟨a, b⟩; exact ⟨a, by rwa [hsub a] at b⟩
    · rintro ⟨a, b⟩; exact ⟨a, by rwa [hsub a]⟩
  by_cases hc : m.toNat < l.toNat ∧ 2 ^ 31 < l.toNat - m.toNat
  · rw [if_pos (hcond.mpr hc), if_pos hc, BitVec.toNat_or, hadd, or_eq_add _ _ 32 (by omega) hm']
  · rw [if_neg (fun h' => hc (hcond.mp h')), if_neg hc, BitVec.toNat_or, hh,
      or_eq_add _ _ 32 (by omega) hm', Nat.add_zero]

/-- The global-time packet, with the low half below 2^32. -/
theorem updateGdc_spec (w timer gdc : U64) (ht : timer.toNat < 2 ^ 32) :
    (updateGdc w timer gdc).1.toNat = (if field w 56 4 = 4 then field w 16 32 else timer.toNat) ∧
    (updateGdc w timer gdc).2.toNat =
      (if field w 56 4 = 5 ∧ field w 16 16 * 2 ^ 32 + timer.toNat ≠ 0 then
        field w 16 16 * 2 ^ 32 + timer.toNat else gdc.toNat) := by
  have hsel : ((((w >>> 16) &&& 0xFFFFFFFFFFFF#64) >>> 40) &&& 0xF#64).toNat = field w 56 4 := by
    unfold field; bits_to_nat; omega
  have hlow : (((w >>> 16) &&& 0xFFFFFFFFFFFF#64) &&& 0xFFFFFFFF#64).toNat = field w 16 32 := by
    unfold field; bits_to_nat; omega
  have hhigh : ((((((w >>> 16) &&& 0xFFFFFFFFFFFF#64) &&& 0xFFFF#64) <<< 32) &&& 0xFFFF00000000#64) |||
      timer).toNat = field w 16 16 * 2 ^ 32 + timer.toNat := by
    rw [BitVec.toNat_or, or_eq_add _ _ 32 _ ht]
    · unfold field; bits_to_nat; omega
    · bits_to_nat; omega
  unfold updateGdc
  simp only
  generalize (((w >>> 16) &&& 0xFFFFFFFFFFFF#64) >>> 40) &&& 0xF#64 = sel at *
  generalize ((w >>> 16) &&& 0xFFFFFFFFFFFF#64) &&& 0xFFFFFFFF#64 = low at *
  generalize (((((w >>> 16) &&& 0xFFFFFFFFFFFF#64) &&& 0xFFFF#64) <<< 32) &&& 0xFFFF00000000#64) |||
    timer = high at *
  have h4 : sel = 0x4#64 ↔ field w 56 4 = 4 := by rw [← BitVec.toNat_inj, hsel]; rfl
  have h5 : sel = 0x5#64 ↔ field w 56 4 = 5 := by rw [← BitVec.toNat_inj, hsel]; rfl
  have h0 : high ≠ 0 ↔ field w 16 16 * 2 ^ 32 + timer.toNat ≠ 0 := by
    rw [Ne, ← BitVec.toNat_inj, hhigh]; rfl
  by_cases c4 : sel = 0x4#64
  · have c4' := h4.mp c4
    rw [if_pos c4, if_pos c4', if_neg (by omega)]
    exact ⟨hlow, rfl⟩
  · rw [if_neg c4, if_neg (fun h => c4 (h4.mpr h))]
    by_cases c5 : sel = 0x5#64
    · rw [if_pos c5]
      refine ⟨rfl, ?_⟩
      by_cases c0 : high ≠ 0
      · rw [if_pos c0, if_pos ⟨h5.mp c5, h0.mp c0⟩, hhigh]
      · rw [if_neg c0, if_neg (fun h => c0 (h0.mpr h.2))]
    · rw [if_neg c5, if_neg (fun h => c5 (h5.mpr h.1))]
      exact ⟨rfl, rfl⟩

/-- One packet in global-clock mode. -/
theorem stepGdc_spec (e : Bool) (chip : Int) (w : U64) (c : Clock) (hc : c.timer.toNat < 2 ^ 32) :
    (stepGdc e chip w c).1.times = nextG w c.times ∧
    (stepGdc e chip w c).1.timer.toNat < 2 ^ 32 ∧
    (stepGdc e chip w c).2 =
      if e = true ∧ IsHitPacket w ∧ c.times.tdc ≠ 0 ∧ c.times.gdc ≠ 0 then
        [hitGdc w (BitVec.ofNat 64 c.times.tdc) (BitVec.ofNat 64 c.times.gdc) chip] else [] := by
  unfold stepGdc nextG
  have hz : ∀ x : U64, x ≠ 0 ↔ x.toNat ≠ 0 := fun x => by rw [Ne, ← BitVec.toNat_inj]; rfl
  by_cases h1 : isTdc w = true
  · have h1' := (isTdc_iff w).mp h1
    rw [if_pos h1, if_pos h1', if_neg (fun h => (trigger_not_hit w h1').1 h.2.1)]
    refine ⟨?_, hc, rfl⟩
    show (⟨_, _, _⟩ : Times) = _
    rw [updateTdcGdc_toNat]
    rfl
  · rw [if_neg h1, if_neg (fun h => h1 ((isTdc_iff w).mpr h))]
    by_cases h2 : isGdc w = true
    · have h2' := (isGdc_iff w).mp h2
      obtain ⟨u1, u2⟩ := updateGdc_spec w c.timer c.gdc hc
      rw [if_pos h2, if_pos h2']
      refine ⟨?_, ?_, (if_neg (fun h => global_not_hit w h2' h.2.1)).symm⟩
      · show (⟨_, _, _⟩ : Times) = _
        rw [u1, u2]
        show _ = if field w 56 4 = 4 then { c.times with low := field w 16 32 }
          else if field w 56 4 = 5 ∧ field w 16 16 * 2 ^ 32 + c.timer.toNat ≠ 0 then
            { c.times with gdc := field w 16 16 * 2 ^ 32 + c.timer.toNat } else c.times
        by_cases c4 : field w 56 4 = 4
        · rw [if_pos c4, if_pos c4, if_neg (by omega)]; rfl
        · rw [if_neg c4, if_neg c4]
          split_ifs <;> rfl
      · show (updateGdc w c.timer c.gdc).1.toNat < _
        rw [u1]
        split_ifs
        · unfold field; omega
        · exact hc
    · rw [if_neg h2, if_neg (fun h => h2 ((isGdc_iff w).mpr h))]
      by_cases h3 : isHit w = true
      · have h3' := (isHit_iff w).mp h3
        rw [if_pos h3]
        refine ⟨rfl, hc, ?_⟩
        simp only [h3', true_and, hz, Clock.times, BitVec.ofNat_toNat, BitVec.setWidth_eq]
      · rw [if_neg h3, if_neg (fun h => h3 ((isHit_iff w).mpr h.2.1))]
        exact ⟨rfl, hc, rfl⟩

/-- One packet in trigger-only mode. -/
theorem stepTdc_spec (e : Bool) (chip : Int) (w : U64) (c : Clock) :
    (stepTdc e chip w c).1.times = nextT w c.times ∧
    (stepTdc e chip w c).2 =
      if e = true ∧ IsHitPacket w ∧ c.times.tdc ≠ 0 then
        [hitTdc w (BitVec.ofNat 64 c.times.tdc) chip] else [] := by
  unfold stepTdc nextT
  have hz : ∀ x : U64, x ≠ 0 ↔ x.toNat ≠ 0 := fun x => by rw [Ne, ← BitVec.toNat_inj]; rfl
  by_cases h1 : isTdc w = true
  · have h1' := (isTdc_iff w).mp h1
    rw [if_pos h1, if_pos h1', if_neg (fun h => (trigger_not_hit w h1').1 h.2.1)]
    refine ⟨?_, rfl⟩
    show (⟨_, _, _⟩ : Times) = _
    rw [updateTdcOnly_toNat]
    rfl
  · rw [if_neg h1, if_neg (fun h => h1 ((isTdc_iff w).mpr h))]
    by_cases h3 : isHit w = true
    · have h3' := (isHit_iff w).mp h3
      rw [if_pos h3]
      refine ⟨rfl, ?_⟩
      simp only [h3', true_and, hz, Clock.times, BitVec.ofNat_toNat, BitVec.setWidth_eq]
    · rw [if_neg h3, if_neg (fun h => h3 ((isHit_iff w).mpr h.2.1))]
      exact ⟨rfl, rfl⟩

/-! ### Packet lists -/

/-- The packet loop on a list of packets. -/
def runPackets (m : Mode) (e : Bool) (chip : Int) : List U64 → Clock → Clock × List Hit
  | [], c => (c, [])
  | w :: ws, c =>
    ((runPackets m e chip ws (step m e chip w c).1).1,
      (step m e chip w c).2 ++ (runPackets m e chip ws (step m e chip w c).1).2)

theorem runPackets_append (m : Mode) (e : Bool) (chip : Int) (ws vs : List U64) (c : Clock) :
    runPackets m e chip (ws ++ vs) c =
      ((runPackets m e chip vs (runPackets m e chip ws c).1).1,
        (runPackets m e chip ws c).2 ++ (runPackets m e chip vs (runPackets m e chip ws c).1).2) := by
  induction ws generalizing c with
  | nil => rfl
  | cons w ws ih => simp only [List.cons_append, runPackets, ih, List.append_assoc]

/-- The loop needs the first bytes of an incomplete packet. -/
def reachesPartial (buf : Bytes) (pos n : Nat) : Prop :=
  (buf.length - (pos + 8)) % 8 ≠ 0 ∧ (buf.length - (pos + 8)) / 8 < n

instance (buf : Bytes) (pos n : Nat) : Decidable (reachesPartial buf pos n) := by
  unfold reachesPartial; infer_instance

theorem processLoop_done (m : Mode) (e : Bool) (chip : Int) (buf : Bytes) (n pos : Nat) (c : Clock)
    (hs : List Hit) (h : buf.length ≤ pos + 8) : processLoop m e chip buf n pos c hs = .ok (c, hs) := by
  induction n with
  | zero => rfl
  | succ n ih => rw [processLoop, if_pos h, ih]

/-- The packet loop is undefined if it reaches an incomplete packet, and otherwise runs through the complete
packets of the batch. -/
theorem processLoop_eq (m : Mode) (e : Bool) (chip : Int) (buf : Bytes) (n pos : Nat) (c : Clock)
    (hs : List Hit) :
    processLoop m e chip buf n pos c hs =
      if reachesPartial buf pos n then .ub .oobRead
      else .ok ((runPackets m e chip (batchPackets buf pos n) c).1,
        hs ++ (runPackets m e chip (batchPackets buf pos n) c).2) := by
  induction n generalizing pos c hs with
  | zero =>
    rw [if_neg (by unfold reachesPartial; omega)]
    simp [processLoop, batchPackets, runPackets]
  | succ n ih =>
    by_cases h : buf.length ≤ pos + 8
    · rw [processLoop_done _ _ _ _ _ _ _ _ h, if_neg (by unfold reachesPartial; omega)]
      have : batchPackets buf pos (n + 1) = [] := by
        unfold batchPackets
        rw [wordsOf_short _ (by rw [List.length_drop]; omega)]
        rfl
      simp [this, runPackets]
    · rw [processLoop, if_neg h]
      by_cases h8 : pos + 8 + 8 ≤ buf.length
      · rw [wordAt_eq _ _ h8]
        have hb : batchPackets buf pos (n + 1) =
            headWord (buf.drop (pos + 8)) :: batchPackets buf (pos + 8) n := by
          unfold batchPackets
          rw [wordsOf_cons _ (by rw [List.length_drop]; omega), List.take_succ_cons, List.drop_drop]
        have hp : reachesPartial buf pos (n + 1) ↔ reachesPartial buf (pos + 8) n := by
          unfold reachesPartial; omega
        simp only [ih, hb, runPackets, List.append_assoc]
        by_cases hr : reachesPartial buf (pos + 8) n
        · rw [if_pos hr, if_pos (hp.mpr hr)]
        · rw [if_neg hr, if_neg (fun x => hr (hp.mp x))]
      · rw [wordAt_none _ _ (by omega), if_pos (by unfold reachesPartial; omega)]

/-! ### Hits of a packet list -/

theorem timesG_cons (t : Times) (w : U64) (ws : List U64) : timesG t (w :: ws) = timesG (nextG w t) ws := rfl
theorem timesT_cons (t : Times) (w : U64) (ws : List U64) : timesT t (w :: ws) = timesT (nextT w t) ws := rfl

theorem hitsG_cons (chip : Int) (t : Times) (w : U64) (ws : List U64) :
    hitsG chip t (w :: ws) =
      (if IsHitPacket w ∧ t.tdc ≠ 0 ∧ t.gdc ≠ 0 then
        [hitGdc w (BitVec.ofNat 64 t.tdc) (BitVec.ofNat 64 t.gdc) chip] else []) ++
      hitsG chip (nextG w t) ws := by
  have hidx : hitIndicesG t (w :: ws) =
      (if IsHitPacket w ∧ t.tdc ≠ 0 ∧ t.gdc ≠ 0 then [0] else []) ++
        (hitIndicesG (nextG w t) ws).map Nat.succ := by
    unfold hitIndicesG
    rw [List.length_cons, List.range_succ_eq_map, List.filter_cons, List.filter_map]
    have e0 : timesG t ((w :: ws).take 0) = t := rfl
    simp only [e0, List.getD_cons_zero, decide_eq_true_eq]
    split_ifs
    · rfl
    · rfl
  unfold hitsG
  rw [hidx, List.map_append, List.map_map]
  congr 1
  split_ifs <;> rfl

theorem hitsT_cons (chip : Int) (t : Times) (w : U64) (ws : List U64) :
    hitsT chip t (w :: ws) =
      (if IsHitPacket w ∧ t.tdc ≠ 0 then [hitTdc w (BitVec.ofNat 64 t.tdc) chip] else []) ++
      hitsT chip (nextT w t) ws := by
  have hidx : hitIndicesT t (w :: ws) =
      (if IsHitPacket w ∧ t.tdc ≠ 0 then [0] else []) ++
        (hitIndicesT (nextT w t) ws).map Nat.succ := by
    unfold hitIndicesT
    rw [List.length_cons, List.range_succ_eq_map, List.filter_cons, List.filter_map]
    have e0 : timesT t ((w :: ws).take 0) = t := rfl
    simp only [e0, List.getD_cons_zero, decide_eq_true_eq]
    split_ifs
    · rfl
    · rfl
  unfold hitsT
  rw [hidx, List.map_append, List.map_map]
  congr 1
  split_ifs <;> rfl

theorem runGdc_spec (chip : Int) (ws : List U64) (c : Clock) (hc : c.timer.toNat < 2 ^ 32) :
    (runPackets .gdc true chip ws c).1.times = timesG c.times ws ∧
    (runPackets .gdc true chip ws c).1.timer.toNat < 2 ^ 32 ∧
    (runPackets .gdc true chip ws c).2 = hitsG chip c.times ws := by
  induction ws generalizing c with
  | nil => exact ⟨rfl, hc, rfl⟩
  | cons w ws ih =>
    obtain ⟨s1, s2, s3⟩ := stepGdc_spec true chip w c hc
    obtain ⟨i1, i2, i3⟩ := ih (stepGdc true chip w c).1 s2
    refine ⟨?_, i2, ?_⟩
    · rw [timesG_cons, ← s1]; exact i1
    · rw [hitsG_cons, ← s1, ← i3]
      show (stepGdc true chip w c).2 ++ _ = _
      rw [s3]
      simp only [true_and]
      rfl

theorem runTdc_spec (chip : Int) (ws : List U64) (c : Clock) :
    (runPackets .tdc true chip ws c).1.times = timesT c.times ws ∧
    (runPackets .tdc true chip ws c).2 = hitsT chip c.times ws := by
  induction ws generalizing c with
  | nil => exact ⟨rfl, rfl⟩
  | cons w ws ih =>
    obtain ⟨s1, s3⟩ := stepTdc_spec true chip w c
    obtain ⟨i1, i3⟩ := ih (stepTdc true chip w c).1
    refine ⟨?_, ?_⟩
    · rw [timesT_cons, ← s1]; exact i1
    · rw [hitsT_cons, ← s1, ← i3]
      show (stepTdc true chip w c).2 ++ _ = _
      rw [s3]
      simp only [true_and]
      rfl

/-- The clock does not depend on extraction or chip. -/
theorem step_clock (m : Mode) (e e' : Bool) (chip chip' : Int) (w : U64) (c : Clock) :
    (step m e chip w c).1 = (step m e' chip' w c).1 := by
  cases m <;> simp only [step, stepGdc, stepTdc] <;> split_ifs <;> rfl

theorem runPackets_clock (m : Mode) (e e' : Bool) (chip chip' : Int) (ws : List U64) (c : Clock) :
    (runPackets m e chip ws c).1 = (runPackets m e' chip' ws c).1 := by
  induction ws generalizing c with
  | nil => rfl
  | cons w ws ih =>
    simp only [runPackets]
    rw [step_clock m e e' chip chip' w c, ih]

theorem step_noextract (m : Mode) (chip : Int) (w : U64) (c : Clock) : (step m false chip w c).2 = [] := by
  cases m <;> simp only [step, stepGdc, stepTdc] <;> split_ifs <;> simp_all

theorem runPackets_noextract (m : Mode) (chip : Int) (ws : List U64) (c : Clock) :
    (runPackets m false chip ws c).2 = [] := by
  induction ws generalizing c with
  | nil => rfl
  | cons w ws ih => simp only [runPackets, step_noextract, ih, List.append_nil]

/-! ### Batches -/

theorem extractHits_eq (m : Mode) (buf : Bytes) (b : Batch) :
    extractHits m buf b =
      if reachesPartial buf b.index b.numPackets then .ub .oobRead
      else .ok { b with
        clock := (runPackets m true b.chip (batchPackets buf b.index b.numPackets) b.clock).1
        hits := b.hits ++ (runPackets m true b.chip (batchPackets buf b.index b.numPackets) b.clock).2 } := by
  unfold extractHits
  rw [processLoop_eq]
  split_ifs <;> rfl

/-- The start timestamps stored in a batch. -/
def storedClock (m : Mode) (b : Batch) (c : Clock) : Clock :=
  match m with
  | .gdc => c
  | .tdc => { b.clock with tdc := c.tdc }

theorem updateTimestamp_eq (m : Mode) (buf : Bytes) (b : Batch) (c : Clock) :
    updateTimestamp m buf b c =
      if reachesPartial buf b.index b.numPackets then .ub .oobRead
      else .ok ({ b with clock := storedClock m b c },
        (runPackets m true b.chip (batchPackets buf b.index b.numPackets) c).1) := by
  unfold updateTimestamp
  rw [processLoop_eq]
  rw [runPackets_noextract, runPackets_clock m false true b.chip b.chip]
  cases m <;> split_ifs <;> simp [storedClock, bind, Res.bind]

/-! ### Header scan -/

/-- The scan on a list of words. -/
def scan : List U64 → Nat → List Batch
  | [], _ => []
  | w :: ws, off =>
    if isHeader w then Batch.new off (headerPackets w) (headerChip w) :: scan ws (off + 8)
    else scan ws (off + 8)

/-- `findTPX3H` runs to the end of the buffer in the rounds allotted. -/
theorem findLoop_eq (buf : Bytes) (fuel off : Nat) (h : (buf.length - off) / 8 < fuel) :
    findLoop buf fuel off = .ok (scan (wordsOf (buf.drop off)) off) := by
  induction fuel generalizing off with
  | zero => omega
  | succ fuel ih =>
    rw [findLoop]
    by_cases h8 : 8 ≤ buf.length - off
    · rw [if_pos h8, wordAt_eq _ _ (by omega), wordsOf_cons _ (by rw [List.length_drop]; exact h8)]
      simp only [ih (off + 8) (by omega), scan, List.drop_drop]
      show (if _ then _ else _) = _
      split_ifs <;> rfl
    · rw [if_neg h8, wordsOf_short _ (by rw [List.length_drop]; omega)]
      rfl

theorem findTPX3H_eq (buf : Bytes) : findTPX3H buf = .ok (scan (wordsOf buf) 0) := by
  have := findLoop_eq buf (buf.length / 8 + 1) 0 (by omega)
  simpa [findTPX3H] using this

theorem mem_scan (ws : List U64) (off : Nat) (b : Batch) :
    b ∈ scan ws off ↔ ∃ k, ∃ h : k < ws.length, isHeader ws[k] = true ∧
      b = Batch.new (off + 8 * k) (headerPackets ws[k]) (headerChip ws[k]) := by
  induction ws generalizing off with
  | nil => simp [scan]
  | cons w ws ih =>
    have hrest : b ∈ scan ws (off + 8) ↔ ∃ k, ∃ h : k + 1 < (w :: ws).length,
        isHeader (w :: ws)[k + 1] = true ∧ b = Batch.new (off + 8 * (k + 1)) (headerPackets (w :: ws)[k + 1])
          (headerChip (w :: ws)[k + 1]) := by
      rw [ih]
      constructor
      · rintro ⟨k, hk, h1, h2⟩
        refine ⟨k, by simpa using hk, by simpa using h1, ?_⟩
        rw [h2]
        simp only [List.getElem_cons_succ]
        congr 1
        omega
      · rintro ⟨k, hk, h1, h2⟩
        refine ⟨k, by simpa using hk, by simpa using h1, ?_⟩
        rw [h2]
        simp only [List.getElem_cons_succ]
        congr 1
        omega
    have hsplit : (∃ k, ∃ h : k < (w :: ws).length, isHeader (w :: ws)[k] = true ∧
        b = Batch.new (off + 8 * k) (headerPackets (w :: ws)[k]) (headerChip (w :: ws)[k])) ↔
        (isHeader w = true ∧ b = Batch.new off (headerPackets w) (headerChip w)) ∨ b ∈ scan ws (off + 8) := by
      rw [hrest]
      constructor
      · rintro ⟨k, hk, h1, h2⟩
        cases k with
        | zero => left; exact ⟨by simpa using h1, by simpa using h2⟩
        | succ k => right; exact ⟨k, hk, h1, h2⟩
      · rintro (⟨h1, h2⟩ | ⟨k, hk, h1, h2⟩)
        · exact ⟨0, by simp, by simpa using h1, by simpa using h2⟩
        · exact ⟨k + 1, hk, h1, h2⟩
    rw [hsplit, scan]
    split_ifs with hw
    · simp [hw]
    · simp [hw]

theorem scan_index_ge (ws : List U64) (off : Nat) (b : Batch) (h : b ∈ scan ws off) : off ≤ b.index := by
  obtain ⟨k, _, _, rfl⟩ := (mem_scan ws off b).mp h
  show off ≤ off + 8 * k
  omega

theorem scan_sorted (ws : List U64) (off : Nat) : (scan ws off).Pairwise (fun a b => a.index < b.index) := by
  induction ws generalizing off with
  | nil => exact List.Pairwise.nil
  | cons w ws ih =>
    rw [scan]
    split_ifs
    · refine List.Pairwise.cons ?_ (ih _)
      intro b hb
      have := scan_index_ge ws (off + 8) b hb
      show off < b.index
      omega
    · exact ih _

theorem isHeader_iff (buf : Bytes) (off : Nat) (h : off + 8 ≤ buf.length) :
    isHeader (headWord (buf.drop off)) = true ↔ LooksLikeHeader buf off := by
  have hl : 8 ≤ (buf.drop off).length := by rw [List.length_drop]; omega
  unfold isHeader LooksLikeHeader
  simp only [Bool.and_eq_true, beq_iff_eq]
  rw [byteOf_headWord _ 0 (by omega) hl, byteOf_headWord _ 1 (by omega) hl, byteOf_headWord _ 2 (by omega) hl]
  simp only [List.getElem_drop, and_assoc]
  rw [List.getElem?_eq_getElem (by omega), List.getElem?_eq_getElem (by omega),
    List.getElem?_eq_getElem (by omega)]
  simp

theorem mask_signExtend (b : Byte) : (0xff#32 &&& b.signExtend 32).toNat = b.toNat := by
  revert b; decide

theorem headerPackets_eq (w : U64) :
    headerPackets w = ((byteOf w 7).toNat * 256 + (byteOf w 6).toNat) / 8 := by
  have h7 := (byteOf w 7).isLt
  have h6 := (byteOf w 6).isLt
  unfold headerPackets
  rw [BitVec.toNat_or, BitVec.toNat_shiftLeft, mask_signExtend, mask_signExtend, Nat.shiftLeft_eq,
    Nat.mod_eq_of_lt (by omega), or_eq_add _ _ 8 (by omega) (by omega), Nat.shiftRight_eq_div_pow]

end Verif
