import Verif.Props.Detector
import Verif.Props.StreamCli
import Verif.Props.GdcMain

/-!
# The older readers and the clock extractor on the file of a detector (C100)
-/

namespace Verif.Props

open Verif Verif.Spec

/-! ## Sequential decoding with the clock extended forward -/

theorem legacyArrival_true {w : U64} {t g : Nat} (hw : clock30 w = t % 2 ^ 30) (h1 : g ≤ t) (h2 : t < g + 2 ^ 30) (h3 : t < 2 ^ 48) :
    legacyArrival w g = t := by
  unfold legacyArrival
  rw [hw]
  split_ifs <;> omega

/-- The hit decoded by the older library is the true one. -/
theorem pixel_legacy {p : Past} {t col row tot ftoa : Nat} (chip : Int) (h : (Signal.pixel t col row tot ftoa).TimelyL p) :
    legacyHit (pixelWord t col row tot ftoa) (BitVec.ofNat 64 p.trigger) (BitVec.ofNat 64 p.clock) chip =
      trueHit chip p.trigger t col row tot ftoa ∧
    p.trigger ≤ legacyArrival (pixelWord t col row tot ftoa) p.clock := by
  obtain ⟨hok, t1, t2, t3, t4, t5⟩ := h
  obtain ⟨-, -, -, f4, f5, f6, f7, -⟩ := pixelWord_fields (t := t) hok
  have hpos := pixel_position (t := t) hok chip
  have hg : (BitVec.ofNat 64 p.clock).toNat = p.clock := by rw [BitVec.toNat_ofNat]; omega
  have htr : (BitVec.ofNat 64 p.trigger).toNat = p.trigger := by rw [BitVec.toNat_ofNat]; omega
  have ht : (BitVec.ofNat 64 t).toNat = t := by rw [BitVec.toNat_ofNat]; omega
  generalize pixelWord t col row tot ftoa = w at *
  have harr := legacyArrival_true f4 t3 t4 t5
  refine ⟨?_, by rw [harr]; exact t1⟩
  have hsame := (c49_ctor w (BitVec.ofNat 64 p.trigger) (BitVec.ofNat 64 p.clock) 0 0 chip).1
  have hsp : (legacyHit w (BitVec.ofNat 64 p.trigger) (BitVec.ofNat 64 p.clock) chip).spidertime = BitVec.ofNat 64 t := by
    apply BitVec.eq_of_toNat_eq
    have := legacyExtend_toNat w (BitVec.ofNat 64 p.clock) chip
    rw [hg, harr] at this
    rw [ht]
    exact this
  have htof : (legacyHit w (BitVec.ofNat 64 p.trigger) (BitVec.ofNat 64 p.clock) chip).tof = some (BitVec.ofNat 32 (t - p.trigger)) := by
    obtain ⟨-, r, e1, e2⟩ := c49_after_trigger w (BitVec.ofNat 64 p.trigger) (BitVec.ofNat 64 p.clock) chip
      (by rw [hg, htr, harr]; exact t1)
    rw [hg, htr, harr] at e2
    rw [e1]
    congr 1
    apply BitVec.eq_of_toNat_eq
    rw [e2, BitVec.toNat_ofNat]
  obtain ⟨s1, s2, s3, s4, s5⟩ := hsame
  have hx := congrArg Prod.fst hpos
  have hy := congrArg Prod.snd hpos
  have e1 : (hitGdc w 0 0 chip).x = (layoutXY chip (pixelXY (decPixaddr w))).1 := rfl
  have e2 : (hitGdc w 0 0 chip).y = (layoutXY chip (pixelXY (decPixaddr w))).2 := rfl
  have e3 : (hitGdc w 0 0 chip).tot = (decTot w : Nat) := rfl
  have e4 : (hitGdc w 0 0 chip).toa = (decToa w : Nat) := rfl
  have e5 : (hitGdc w 0 0 chip).ftoa = (decFtoa w : Nat) := rfl
  rw [e1, hx] at s1
  rw [e2, hy] at s2
  rw [e3, f5] at s3
  rw [e4, f6] at s4
  rw [e5, f7] at s5
  generalize legacyHit w (BitVec.ofNat 64 p.trigger) (BitVec.ofNat 64 p.clock) chip = H at *
  obtain ⟨x, y, a, b, c, d, e⟩ := H
  simp only at s1 s2 s3 s4 s5 hsp htof
  subst s1 s2 s3 s4 s5 hsp htof
  rfl

/-- Times after a list of packets for the older reader. -/
def timesL (t : Times) (ws : List U64) : Times := ws.foldl (fun t w => nextL w t) t

theorem signal_legacy {p : Past} {t : Times} (hk : Keeps p t) (s : Signal) (hs : s.TimelyL p) :
    Keeps (p.after s) (timesL t s.packets) := by
  obtain ⟨k1, k2⟩ := hk
  cases s with
  | trigger u =>
    obtain ⟨a1, a2, a3⟩ := hs
    obtain ⟨f1, f2, f3⟩ := triggerWord_fields u
    rw [packets_trigger]
    simp only [timesL, List.foldl_cons, List.foldl_nil, nextL, if_pos f1, Past.after, f3]
    refine ⟨?_, k2⟩
    simp only [triggerTime, k2]
    omega
  | clock u =>
    have a1 : u < 2 ^ 48 := hs
    obtain ⟨f1, f2, f3, f4, f5⟩ := clockLow_fields u
    obtain ⟨g1, g2, g3, g4, g5⟩ := clockHigh_fields u
    have hval : u / 2 ^ 32 % 2 ^ 16 * 2 ^ 32 + u % 2 ^ 32 = u := by omega
    rw [packets_clock]
    simp only [timesL, List.foldl_cons, List.foldl_nil]
    generalize clockLow u = w1 at *
    generalize clockHigh u = w2 at *
    have n1 : nextL w1 t = { t with low := u % 2 ^ 32 } := by
      rw [nextL, if_neg f2, if_pos f1, if_pos f4, f5]
    rw [n1]
    have n2 : nextL w2 { t with low := u % 2 ^ 32 } = { tdc := t.tdc, gdc := u, low := u % 2 ^ 32 } := by
      rw [nextL, if_neg g2, if_pos g1, if_neg (by rw [g4]; decide), if_pos g4, g5]
      simp only [hval]
    rw [n2]
    exact ⟨k1, rfl⟩
  | pixel u col row tot ftoa =>
    obtain ⟨hok, -⟩ := hs
    obtain ⟨f1, f2, f3, -⟩ := pixelWord_fields (t := u) hok
    have : timesL t (Signal.pixel u col row tot ftoa).packets = t := by
      rw [packets_pixel, timesL, List.foldl_cons, List.foldl_nil]
      rw [nextL, if_neg f2, if_neg f3]
    rw [this]
    exact ⟨k1, k2⟩

theorem passL_tagged (chip : Int) (t : Times) (ws : List U64) (ps : List (Int × U64)) :
    passL t (ws.map (fun w => (chip, w)) ++ ps) = passL t (ws.map fun w => (chip, w)) ++ passL (timesL t ws) ps := by
  induction ws generalizing t with
  | nil => rfl
  | cons w ws ih =>
    simp only [List.map_cons, List.cons_append, passL]
    rw [ih, List.append_assoc]
    rfl

theorem afterTrigger_tagged (chip : Int) (t : Times) (ws : List U64) (ps : List (Int × U64)) :
    HitsAfterTrigger t (ws.map (fun w => (chip, w)) ++ ps) ↔
      HitsAfterTrigger t (ws.map fun w => (chip, w)) ∧ HitsAfterTrigger (timesL t ws) ps := by
  induction ws generalizing t with
  | nil => simp [HitsAfterTrigger, timesL]
  | cons w ws ih =>
    simp only [List.map_cons, List.cons_append, HitsAfterTrigger]
    rw [ih, and_assoc]
    rfl

/-- The hits decoded from the packets of the signals are those of all firing pixels, none lies before the trigger in force, and the times kept
are the true ones. -/
theorem signals_legacy (chip : Int) (sigs : List Signal) (p : Past) (t : Times) (hk : Keeps p t) (hs : AllTimelyL p sigs) :
    passL t ((sigs.flatMap Signal.packets).map fun w => (chip, w)) = everyHit chip p sigs ∧
    HitsAfterTrigger t ((sigs.flatMap Signal.packets).map fun w => (chip, w)) ∧
    Keeps (sigs.foldl Past.after p) (timesL t (sigs.flatMap Signal.packets)) := by
  induction sigs generalizing p t with
  | nil => exact ⟨rfl, trivial, hk⟩
  | cons s ss ih =>
    obtain ⟨h1, h2⟩ := hs
    have hk' := signal_legacy hk s h1
    obtain ⟨i1, i2, i3⟩ := ih (p.after s) _ hk' h2
    rw [List.flatMap_cons, List.map_append, passL_tagged, afterTrigger_tagged, i1]
    refine ⟨?_, ⟨?_, i2⟩, ?_⟩
    · cases s with
      | trigger u =>
        obtain ⟨f1, f2, f3⟩ := triggerWord_fields u
        rw [packets_trigger]
        simp only [List.map_cons, List.map_nil, passL, if_neg f2, List.nil_append]
        rfl
      | clock u =>
        obtain ⟨f1, f2, f3, -⟩ := clockLow_fields u
        obtain ⟨g1, g2, g3, -⟩ := clockHigh_fields u
        rw [packets_clock]
        simp only [List.map_cons, List.map_nil, passL, if_neg f3, if_neg g3, List.nil_append]
        rfl
      | pixel u col row tot ftoa =>
        obtain ⟨f1, -⟩ := pixelWord_fields (t := u) h1.1
        rw [packets_pixel]
        simp only [List.map_cons, List.map_nil, passL, if_pos f1, List.append_nil]
        rw [hk.1, hk.2, (pixel_legacy chip h1).1]
        rfl
    · cases s with
      | trigger u =>
        obtain ⟨f1, f2, f3⟩ := triggerWord_fields u
        rw [packets_trigger]
        simp [HitsAfterTrigger, f2]
      | clock u =>
        obtain ⟨f1, f2, f3, -⟩ := clockLow_fields u
        obtain ⟨g1, g2, g3, -⟩ := clockHigh_fields u
        rw [packets_clock]
        simp [HitsAfterTrigger, f3, g3]
      | pixel u col row tot ftoa =>
        rw [packets_pixel]
        simp only [List.map_cons, List.map_nil, HitsAfterTrigger, and_true]
        intro _
        rw [hk.1, hk.2]
        exact (pixel_legacy chip h1).2
    · have happ : timesL t (s.packets ++ ss.flatMap Signal.packets) = timesL (timesL t s.packets) (ss.flatMap Signal.packets) := by
        rw [timesL, List.foldl_append]; rfl
      rw [happ]
      exact i3

theorem readout_fits {r : Readout} (hr : r.Fits) :
    r.chunk.WellFormed ∧ headerChipId r.chunk.header = r.chip ∧ field r.chunk.header 32 8 = r.chip := by
  have h1 := hr.chip
  have h2 := hr.length
  have e : (r.header).toNat = 0x33585054 + r.chip * 2 ^ 32 + 8 * r.packets.length * 2 ^ 48 := by
    unfold Readout.header
    rw [BitVec.toNat_ofNat]
    apply Nat.mod_eq_of_lt
    omega
  unfold Chunk.WellFormed StartsTPX headerChipId Readout.chunk field
  simp only
  rw [e]
  generalize r.packets.length = l at *
  refine ⟨⟨by omega, by omega⟩, ?_, by omega⟩
  rw [if_pos (by omega)]
  omega

theorem allTimelyL_append {p : Past} {l l' : List Signal} :
    AllTimelyL p (l ++ l') ↔ AllTimelyL p l ∧ AllTimelyL (l.foldl Past.after p) l' := by
  induction l generalizing p with
  | nil => simp [AllTimelyL]
  | cons s l ih => simp only [List.cons_append, AllTimelyL, List.foldl_cons]; rw [ih, and_assoc]

theorem readouts_legacy (rs : List Readout) (hfit : ∀ r ∈ rs, r.Fits) (p : Past) (t : Times) (hk : Keeps p t)
    (hs : AllTimelyL p (rs.flatMap Readout.signals)) :
    passL t (chunkPackets (rs.map Readout.chunk)) = everyReadout p rs ∧
    HitsAfterTrigger t (queuePackets (rs.map Readout.chunk)) := by
  induction rs generalizing p t with
  | nil => exact ⟨rfl, trivial⟩
  | cons r rs ih =>
    rw [List.flatMap_cons, allTimelyL_append] at hs
    obtain ⟨-, hc, hq⟩ := readout_fits (hfit r (by simp))
    obtain ⟨a1, a2, a3⟩ := signals_legacy r.chip r.signals p t hk hs.1
    obtain ⟨b1, b2⟩ := ih (fun r' h' => hfit r' (by simp [h'])) _ _ a3 hs.2
    have e1 : chunkPackets ((r :: rs).map Readout.chunk) =
        (r.signals.flatMap Signal.packets).map (fun w => ((r.chip : Int), w)) ++ chunkPackets (rs.map Readout.chunk) := by
      rw [List.map_cons, chunkPackets_cons, hc]; rfl
    have e2 : queuePackets ((r :: rs).map Readout.chunk) =
        (r.signals.flatMap Signal.packets).map (fun w => ((r.chip : Int), w)) ++ queuePackets (rs.map Readout.chunk) := by
      rw [List.map_cons, queuePackets, List.flatMap_cons, hq]; rfl
    rw [e1, e2, passL_tagged, afterTrigger_tagged, a1, b1]
    exact ⟨rfl, a2, b2⟩

/-- C100 for `parseRawBytesToHits`: on the file of a detector whose signals are timely it returns the true hits of all firing pixels, in
order; packets disguised as headers do no harm. -/
theorem c100_parse (rs : List Readout) (hfit : ∀ r ∈ rs, r.Fits) (hs : AllTimelyL ⟨0, 0⟩ (rs.flatMap Readout.signals)) :
    parseRawBytesToHits (detectorFile rs) = .ok (everyReadout ⟨0, 0⟩ rs) := by
  rw [detectorFile, c56_parse _ (by simp only [List.mem_map]; rintro c ⟨r, hr, rfl⟩; exact (readout_fits (hfit r hr)).1),
    (readouts_legacy rs hfit ⟨0, 0⟩ ⟨0, 0, 0⟩ ⟨rfl, rfl⟩ hs).1]

/-- C100 for the reader of the streaming program, if the array of the last read, which fails, does not look like a header. -/
theorem c100_stream_partial (junk : Nat → U64) (rs : List Readout) (hfit : ∀ r ∈ rs, r.Fits)
    (hs : AllTimelyL ⟨0, 0⟩ (rs.flatMap Readout.signals)) (hj : ¬ StartsTPX (junk ((detectorFile rs).length / 8))) :
    streamReader junk (detectorFile rs) = .ok (some (everyReadout ⟨0, 0⟩ rs)) := by
  have hw : ∀ c ∈ rs.map Readout.chunk, c.WellFormed := by
    simp only [List.mem_map]; rintro c ⟨r, hr, rfl⟩; exact (readout_fits (hfit r hr)).1
  have hl : (detectorFile rs).length / 8 = (streamWords (rs.map Readout.chunk)).length := by
    rw [detectorFile, streamBytes_length]; omega
  rw [hl] at hj
  obtain ⟨hits, h1, h2, -⟩ := c59_stream_partial junk _ hw hj (readouts_legacy rs hfit ⟨0, 0⟩ ⟨0, 0, 0⟩ ⟨rfl, rfl⟩ hs).2
  have h3 := c100_parse rs hfit hs
  rw [detectorFile] at h3 ⊢
  rw [h1]
  rw [h2] at h3
  injection h3 with h3
  rw [h3]

/-! ## The reader that counts the turns of the 30-bit clock -/

/-- As the true hit, but with the time since the last multiple of 666667 ticks (16.67 ms). -/
def InPeriod (h k : Hit) : Prop := h = { k with tof := some (BitVec.ofNat 32 (k.spidertime.toNat % 666667)) }

/-- The state of the counter at a true time. -/
def turns (t : Nat) : Rollover := ⟨BitVec.ofNat 64 (t / 2 ^ 30), BitVec.ofNat 64 (t % 2 ^ 30)⟩

theorem pixel_turns {p : Past} {t u col row tot ftoa : Nat} (chip : Int) (hok : PixelOk col row tot ftoa) (h1 : u < t + 2 ^ 29)
    (h2 : t < u + 2 ^ 29) (hu : u < 2 ^ 64) (ht : t < 2 ^ 64) :
    (packetToHitAlt (pixelWord u col row tot ftoa) (turns t) chip).2 = turns u ∧
    InPeriod (packetToHitAlt (pixelWord u col row tot ftoa) (turns t) chip).1 (trueHit chip p.trigger u col row tot ftoa) := by
  obtain ⟨-, -, -, f4, f5, f6, f7, -⟩ := pixelWord_fields (t := u) hok
  have hpos := pixel_position (t := u) hok chip
  generalize pixelWord u col row tot ftoa = w at *
  obtain ⟨a1, a2, f, a3, a4⟩ := alt_step t u w chip h1 h2 hu ht f4
  refine ⟨a1, ?_⟩
  have hu' : (BitVec.ofNat 64 u).toNat = u := by rw [BitVec.toNat_ofNat]; omega
  have hsp := BitVec.eq_of_toNat_eq (a2.trans hu'.symm)
  have htof : f = BitVec.ofNat 32 (u % 666667) := by
    apply BitVec.eq_of_toNat_eq
    rw [a4, BitVec.toNat_ofNat]; omega
  have hsame := (c49_alt w 0 0 chip (turns t)).1
  obtain ⟨s1, s2, s3, s4, s5⟩ := hsame
  have hx := congrArg Prod.fst hpos
  have hy := congrArg Prod.snd hpos
  have e1 : (hitGdc w 0 0 chip).x = (layoutXY chip (pixelXY (decPixaddr w))).1 := rfl
  have e2 : (hitGdc w 0 0 chip).y = (layoutXY chip (pixelXY (decPixaddr w))).2 := rfl
  have e3 : (hitGdc w 0 0 chip).tot = (decTot w : Nat) := rfl
  have e4 : (hitGdc w 0 0 chip).toa = (decToa w : Nat) := rfl
  have e5 : (hitGdc w 0 0 chip).ftoa = (decFtoa w : Nat) := rfl
  rw [e1, hx] at s1
  rw [e2, hy] at s2
  rw [e3, f5] at s3
  rw [e4, f6] at s4
  rw [e5, f7] at s5
  rw [htof] at a3
  unfold InPeriod trueHit
  simp only [hu']
  unfold turns at s1 s2 s3 s4 s5 ⊢
  generalize packetToHitAlt w _ chip = P at *
  obtain ⟨⟨x, y, a, b, c, d, e⟩, q⟩ := P
  simp only at s1 s2 s3 s4 s5 hsp a3
  subst s1 s2 s3 s4 s5 hsp a3
  rfl

theorem slow_cons {t u : Nat} {us : List Nat} (h : SlowSteps t (u :: us)) : u < t + 2 ^ 29 ∧ t < u + 2 ^ 29 ∧ SlowSteps u us := by
  cases h with
  | cons _ _ _ h1 h2 h3 => exact ⟨h1, h2, h3⟩

theorem hit_only (chip : Int) (ws : List U64) (ps : List (Int × U64)) (h : ∀ w ∈ ws, ¬ IsHitPacket w) :
    (ws.map (fun w => (chip, w)) ++ ps).filter (fun p => IsHitPacket p.2) = ps.filter fun p => IsHitPacket p.2 := by
  rw [List.filter_append, List.filter_eq_nil_iff.mpr, List.nil_append]
  intro q hq
  obtain ⟨w, hw, rfl⟩ := List.mem_map.mp hq
  simpa using h w hw

theorem signals_turns (chip : Int) (sigs : List Signal) (hok : ∀ s ∈ sigs, SignalOk s) (p : Past) (t : Nat) (us : List Nat)
    (ht : t < 2 ^ 64) (hs : SlowSteps t (pixelTimes sigs ++ us)) (hu : ∀ u ∈ pixelTimes sigs, u < 2 ^ 64) (ps : List (Int × U64)) :
    ∃ hits t', altRun (turns t) (((sigs.flatMap Signal.packets).map (fun w => (chip, w)) ++ ps).filter fun p => IsHitPacket p.2) =
        hits ++ altRun (turns t') (ps.filter fun p => IsHitPacket p.2) ∧
      List.Forall₂ InPeriod hits (everyHit chip p sigs) ∧ t' < 2 ^ 64 ∧ SlowSteps t' us := by
  induction sigs generalizing p t with
  | nil => exact ⟨[], t, rfl, .nil, ht, hs⟩
  | cons s ss ih =>
    have hok' : ∀ s ∈ ss, SignalOk s := fun s' h' => hok s' (by simp [h'])
    rw [List.flatMap_cons, List.map_append, List.append_assoc]
    cases s with
    | trigger u =>
      obtain ⟨-, f2, -⟩ := triggerWord_fields u
      rw [packets_trigger, hit_only _ _ _ (by simp [f2])]
      exact ih hok' (p.after (.trigger u)) t ht hs hu
    | clock u =>
      obtain ⟨-, -, f3, -⟩ := clockLow_fields u
      obtain ⟨-, -, g3, -⟩ := clockHigh_fields u
      rw [packets_clock, hit_only _ _ _ (by simp [f3, g3])]
      exact ih hok' (p.after (.clock u)) t ht hs hu
    | pixel u col row tot ftoa =>
      have hpix : PixelOk col row tot ftoa := hok (.pixel u col row tot ftoa) (by simp)
      obtain ⟨f1, -⟩ := pixelWord_fields (t := u) hpix
      have e : pixelTimes (.pixel u col row tot ftoa :: ss) = u :: pixelTimes ss := rfl
      rw [e] at hs hu
      obtain ⟨h1, h2, h3⟩ := slow_cons hs
      have hu' := hu u (by simp)
      obtain ⟨a1, a2⟩ := pixel_turns (p := p) chip hpix h1 h2 hu' ht
      obtain ⟨hits, t', b1, b2, b3, b4⟩ := ih hok' p u hu' h3 (fun v hv => hu v (by simp [hv]))
      refine ⟨_ :: hits, t', ?_, .cons a2 b2, b3, b4⟩
      rw [packets_pixel, List.map_cons, List.map_nil, List.cons_append, List.nil_append, List.filter_cons_of_pos (by simpa using f1)]
      simp only [altRun]
      rw [a1, b1]
      rfl

theorem readouts_turns (rs : List Readout) (hfit : ∀ r ∈ rs, r.Fits) (hok : ∀ r ∈ rs, ∀ s ∈ r.signals, SignalOk s) (p : Past) (t : Nat)
    (ht : t < 2 ^ 64) (hs : SlowSteps t (pixelTimes (rs.flatMap Readout.signals)))
    (hu : ∀ u ∈ pixelTimes (rs.flatMap Readout.signals), u < 2 ^ 64) :
    List.Forall₂ InPeriod (altRun (turns t) ((chunkPackets (rs.map Readout.chunk)).filter fun p => IsHitPacket p.2))
      (everyReadout p rs) := by
  induction rs generalizing p t with
  | nil => exact .nil
  | cons r rs ih =>
    obtain ⟨-, hc, hq⟩ := readout_fits (hfit r (by simp))
    have e1 : chunkPackets ((r :: rs).map Readout.chunk) =
        (r.signals.flatMap Signal.packets).map (fun w => ((r.chip : Int), w)) ++ chunkPackets (rs.map Readout.chunk) := by
      rw [List.map_cons, chunkPackets_cons, hc]; rfl
    have e2 : pixelTimes ((r :: rs).flatMap Readout.signals) = pixelTimes r.signals ++ pixelTimes (rs.flatMap Readout.signals) := by
      rw [List.flatMap_cons, pixelTimes, List.flatMap_append]; rfl
    rw [e2] at hs hu
    obtain ⟨hits, t', b1, b2, b3, b4⟩ := signals_turns r.chip r.signals (hok r (by simp)) p t _ ht hs (fun u h => hu u (by simp [h]))
      (chunkPackets (rs.map Readout.chunk))
    rw [e1, b1]
    exact List.rel_append b2 (ih (fun r' h' => hfit r' (by simp [h'])) (fun r' h' => hok r' (by simp [h'])) _ t' b3 b4
      (fun u h => hu u (by simp [h])))

/-- C100 for `readTimepix3RawData`, what holds: if successive pixels in the file fire less than 2^29 ticks (13.4 s) apart, it returns the
hits of all firing pixels, in order, with their true times.  Missing: the time of flight counts from the last multiple of 666667 ticks
(`c100_false_period`). -/
theorem c100_read_partial (rs : List Readout) (hfit : ∀ r ∈ rs, r.Fits) (hok : ∀ r ∈ rs, ∀ s ∈ r.signals, SignalOk s)
    (hs : SlowSteps 0 (pixelTimes (rs.flatMap Readout.signals))) (hu : ∀ u ∈ pixelTimes (rs.flatMap Readout.signals), u < 2 ^ 64) :
    ∃ hits, readTimepix3RawData (detectorFile rs) = .ok hits ∧ List.Forall₂ InPeriod hits (everyReadout ⟨0, 0⟩ rs) :=
  ⟨_, c56_read _ (by simp only [List.mem_map]; rintro c ⟨r, hr, rfl⟩; exact (readout_fits (hfit r hr)).1),
    readouts_turns rs hfit hok ⟨0, 0⟩ 0 (by norm_num) hs hu⟩

/-! ## The clock extractor -/

theorem gdcStep_skip {w : U64} (h1 : ¬ StartsTPX3 w) (h2 : ¬ IsGlobalPacket w) (o : Nat) (chip : Int) (p : GdcProc) :
    gdcStep 0 o w chip p = (chip, p, []) := by
  unfold gdcStep
  rw [if_neg (by rw [isTPX3_iff]; exact h1), if_neg (by rw [isGdc_iff]; exact h2)]

theorem gdcStep_clock {w : U64} (h1 : ¬ StartsTPX3 w) (h2 : IsGlobalPacket w) (o : Nat) (chip : Nat) (p : GdcProc) :
    gdcStep 0 o w chip p = ((chip : Int), ⟨(updateGdc w p.timer p.gdc).1, (updateGdc w p.timer p.gdc).2⟩,
      if field w 56 4 = 5 ∧ (updateGdc w p.timer p.gdc).2.toNat ≠ 0 then [⟨chip, (updateGdc w p.timer p.gdc).2, o⟩] else []) := by
  have hsel : (((((w >>> 16) &&& 0xFFFFFFFFFFFF#64) >>> 40) &&& 0xF#64) == 0x5#64) = decide (field w 56 4 = 5) := by
    have : ((((w >>> 16) &&& 0xFFFFFFFFFFFF#64) >>> 40) &&& 0xF#64).toNat = field w 56 4 := by
      unfold field; bits_to_nat; omega
    rw [Bool.eq_iff_iff, beq_iff_eq, ← BitVec.toNat_inj, this]
    simp
  have hz : (updateGdc w p.timer p.gdc).2 ≠ 0 ↔ (updateGdc w p.timer p.gdc).2.toNat ≠ 0 := by
    rw [Ne, Ne, ← BitVec.toNat_inj]; rfl
  unfold gdcStep
  rw [if_neg (by rw [isTPX3_iff]; exact h1), if_pos (by rw [isGdc_iff]; exact h2)]
  simp only [hsel, hz, decide_eq_true_eq, Nat.zero_add, Int.natCast_nonneg, and_true]

theorem startsTPX_of3 {w : U64} (h : StartsTPX3 w) : StartsTPX w := by
  unfold StartsTPX3 at h
  unfold StartsTPX
  unfold field at *
  omega

theorem signals_clocks (chip : Nat) (sigs : List Signal) (hok : ∀ s ∈ sigs, SignalOk s) (hplain : ∀ s ∈ sigs, ¬ s.Disguised)
    (hc : ∀ t, .clock t ∈ sigs → 0 < t ∧ t < 2 ^ 48) (o : Nat) (p : GdcProc) (hp : p.timer.toNat < 2 ^ 32) (ws : List U64) :
    ∃ p' : GdcProc, p'.timer.toNat < 2 ^ 32 ∧ (gdcWords o (chip : Int) p (sigs.flatMap Signal.packets ++ ws)).2.map GdcRecord.plain =
      clocksOf chip o sigs ++ (gdcWords (o + 8 * (sigs.flatMap Signal.packets).length) chip p' ws).2.map GdcRecord.plain := by
  induction sigs generalizing o p with
  | nil => exact ⟨p, hp, by simp [clocksOf]⟩
  | cons s ss ih =>
    have hok' : ∀ s ∈ ss, SignalOk s := fun s' h' => hok s' (by simp [h'])
    have hplain' : ∀ s ∈ ss, ¬ s.Disguised := fun s' h' => hplain s' (by simp [h'])
    have hc' : ∀ t, .clock t ∈ ss → 0 < t ∧ t < 2 ^ 48 := fun t h' => hc t (by simp [h'])
    have hno : ∀ w ∈ s.packets, ¬ StartsTPX3 w := fun w hw h3 =>
      hplain s (by simp) ((c92_disguise s (hok s (by simp))).mp ⟨w, hw, startsTPX_of3 h3⟩)
    rw [List.flatMap_cons, List.append_assoc]
    cases s with
    | trigger u =>
      obtain ⟨f1, f2, f3⟩ := triggerWord_fields u
      have hg : ¬ IsGlobalPacket (triggerWord u) := by
        revert f1; unfold IsTriggerPacket IsGlobalPacket kind field; omega
      rw [packets_trigger] at hno ⊢
      obtain ⟨p', b1, b2⟩ := ih hok' hplain' hc' (o + 8) p hp
      refine ⟨p', b1, ?_⟩
      simp only [List.cons_append, List.nil_append, gdcWords, gdcStep_skip (hno _ (by simp)) hg, b2, clocksOf, List.length_cons]
      rw [show o + 8 + 8 * (ss.flatMap Signal.packets).length = o + 8 * ((ss.flatMap Signal.packets).length + 1) by omega]
    | pixel u col row tot ftoa =>
      obtain ⟨f1, f2, f3, -⟩ := pixelWord_fields (t := u) (hok (.pixel u col row tot ftoa) (by simp))
      rw [packets_pixel] at hno ⊢
      obtain ⟨p', b1, b2⟩ := ih hok' hplain' hc' (o + 8) p hp
      refine ⟨p', b1, ?_⟩
      simp only [List.cons_append, List.nil_append, gdcWords, gdcStep_skip (hno _ (by simp)) f3, b2, clocksOf, List.length_cons]
      rw [show o + 8 + 8 * (ss.flatMap Signal.packets).length = o + 8 * ((ss.flatMap Signal.packets).length + 1) by omega]
    | clock u =>
      obtain ⟨c1, c2⟩ := hc u (by simp)
      obtain ⟨f1, f2, f3, f4, f5⟩ := clockLow_fields u
      obtain ⟨g1, g2, g3, g4, g5⟩ := clockHigh_fields u
      rw [packets_clock] at hno ⊢
      have n1 := hno (clockLow u) (by simp)
      have n2 := hno (clockHigh u) (by simp)
      generalize clockLow u = w1 at *
      generalize clockHigh u = w2 at *
      obtain ⟨a1, -⟩ := updateGdc_spec w1 p.timer p.gdc hp
      rw [if_pos f4, f5] at a1
      obtain ⟨b1, b2⟩ := updateGdc_spec w2 (updateGdc w1 p.timer p.gdc).1 (updateGdc w1 p.timer p.gdc).2 (by rw [a1]; omega)
      rw [if_neg (by omega)] at b1
      rw [g5, a1, if_pos (by omega)] at b2
      have hval : u / 2 ^ 32 % 2 ^ 16 * 2 ^ 32 + u % 2 ^ 32 = u := by omega
      rw [hval] at b2
      obtain ⟨p', d1, d2⟩ := ih hok' hplain' hc' (o + 8 + 8)
        ⟨(updateGdc w2 (updateGdc w1 p.timer p.gdc).1 (updateGdc w1 p.timer p.gdc).2).1,
          (updateGdc w2 (updateGdc w1 p.timer p.gdc).1 (updateGdc w1 p.timer p.gdc).2).2⟩ (by simp only [b1, a1]; omega)
      refine ⟨p', d1, ?_⟩
      simp only [List.cons_append, List.nil_append, gdcWords, gdcStep_clock n1 f1, gdcStep_clock n2 g1]
      rw [if_neg (by omega), if_pos ⟨g4, by rw [b2]; omega⟩, List.nil_append, List.map_append, d2]
      simp only [List.map_cons, List.map_nil, GdcRecord.plain, b2, clocksOf, List.cons_append, List.nil_append, List.length_cons]
      rw [show o + 8 + 8 + 8 * (ss.flatMap Signal.packets).length = o + 8 * ((ss.flatMap Signal.packets).length + 1 + 1) by omega]

theorem header_extractor {r : Readout} (hr : r.Ok) : StartsTPX3 r.header ∧ (byteOf r.header 4).toInt = r.chip := by
  have hl := hr.length
  have hc := hr.chip
  have e : (r.header).toNat = 0x33585054 + r.chip * 2 ^ 32 + 8 * r.packets.length * 2 ^ 48 := by
    unfold Readout.header
    rw [BitVec.toNat_ofNat]
    omega
  constructor
  · unfold StartsTPX3 field
    rw [e]; omega
  · have : (byteOf r.header 4).toNat = r.chip := by
      rw [byteOf_toNat, e]; omega
    rw [BitVec.toInt_eq_toNat_of_lt (by omega), this]

theorem readouts_clocks (rs : List Readout) (hr : ∀ r ∈ rs, r.Ok) (hok : ∀ r ∈ rs, ∀ s ∈ r.signals, SignalOk s)
    (hc : ∀ r ∈ rs, ∀ t, .clock t ∈ r.signals → 0 < t ∧ t < 2 ^ 48) (o : Nat) (c : Int) (p : GdcProc) (hp : p.timer.toNat < 2 ^ 32) :
    (gdcWords o c p (streamWords (rs.map Readout.chunk))).2.map GdcRecord.plain = fileClocks o rs := by
  induction rs generalizing o c p with
  | nil => rfl
  | cons r rs ih =>
    obtain ⟨h3, hchip⟩ := header_extractor (hr r (by simp))
    have e : streamWords ((r :: rs).map Readout.chunk) =
        r.header :: (r.signals.flatMap Signal.packets ++ streamWords (rs.map Readout.chunk)) := rfl
    obtain ⟨p', d1, d2⟩ := signals_clocks r.chip r.signals (hok r (by simp)) (hr r (by simp)).plain (hc r (by simp)) (o + 8) p hp
      (streamWords (rs.map Readout.chunk))
    have hs : gdcStep 0 o r.header c p = ((r.chip : Int), p, []) := by
      unfold gdcStep
      rw [if_pos ((isTPX3_iff _).mpr h3), hchip]
    rw [e]
    simp only [gdcWords, hs, List.nil_append, d2, fileClocks]
    rw [ih (fun r' h' => hr r' (by simp [h'])) (fun r' h' => hok r' (by simp [h'])) (fun r' h' => hc r' (by simp [h'])) _ _ _ d1]
    rfl

/-- The records the extractor is to find in a detector file, all of it in one piece: its clocks. -/
theorem c100_clocks (rs : List Readout) (hr : ∀ r ∈ rs, r.Ok) (hok : ∀ r ∈ rs, ∀ s ∈ r.signals, SignalOk s)
    (hc : ∀ r ∈ rs, ∀ t, .clock t ∈ r.signals → 0 < t ∧ t < 2 ^ 48) :
    ∃ recs, GdcProc.new.processChunks [detectorFile rs] 0 = .ok recs ∧
      recs.map (fun r => (r.chip, r.value.toNat, r.offset)) = fileClocks 0 rs := by
  refine ⟨(gdcWords 0 (-1) GdcProc.new (streamWords (rs.map Readout.chunk))).2 ++ [], ?_, ?_⟩
  · simp only [GdcProc.processChunks, processChunk_eq, detectorFile, wordsOf_streamBytes]
    rfl
  · rw [List.append_nil]
    exact readouts_clocks rs hr hok hc 0 (-1) GdcProc.new (by decide)

theorem detector_records (rs : List Readout) (hr : ∀ r ∈ rs, r.Ok) (hok : ∀ r ∈ rs, ∀ s ∈ r.signals, SignalOk s)
    (hc : ∀ r ∈ rs, ∀ t, .clock t ∈ r.signals → 0 < t ∧ t < 2 ^ 48) :
    recordsOf (wordsOf (detectorFile rs)) 0 (wordsOf (detectorFile rs)).length = fileClocks 0 rs := by
  obtain ⟨a, h1, h2⟩ := c100_clocks rs hr hok hc
  obtain ⟨b, h3, h4⟩ := c23_one_piece (detectorFile rs)
  rw [h1] at h3
  simp only [Res.ok.injEq] at h3
  subst h3
  rw [← h2, h4]
  congr 1
  rw [detectorFile, wordsOf_streamBytes, streamBytes_length]; omega

/-- C100 for the clock extractor as a program, what holds: run with success on a detector file, it writes the clocks of the file, of which
none is missing if the file is shorter than the chunk size and which are otherwise in order.  Missing: with larger files the clocks between
a cut and the header after it (`c23_false_cut`). -/
theorem c100_extractor_partial (e : GdcEnv) (argv : List Arg) (fs fs' : Files) (h : gdcMain e argv fs = .ok (0, fs')) (rs : List Readout)
    (hr : ∀ r ∈ rs, r.Ok) (hok : ∀ r ∈ rs, ∀ s ∈ r.signals, SignalOk s)
    (hc : ∀ r ∈ rs, ∀ t, .clock t ∈ r.signals → 0 < t ∧ t < 2 ^ 48)
    (hin : ∀ o, gdcParse argv = .ok o → fs (e.target o.input) = some (detectorFile rs)) :
    ∃ o out all rows, gdcParse argv = .ok o ∧ fs' (e.target o.output) = some out ∧ readCsv? all = some rows ∧
      out = all.take e.room ∧ rows.Sublist ((fileClocks 0 rs).map fun r => (r.1, r.2.1, r.2.2, 25 * r.2.1)) ∧
      ((detectorFile rs).length < o.chunkSize → rows = (fileClocks 0 rs).map fun r => (r.1, r.2.1, r.2.2, 25 * r.2.1)) := by
  obtain ⟨o, file, mb, out, ho, hmb, h1, h2, hf, -, -, hout, all, hrd, htk, -⟩ := c78_success_partial e argv fs fs' h
  have : file = detectorFile rs := by
    have := hin o ho
    rw [hf] at this
    simpa using this
  subst this
  refine ⟨o, out, all, _, ho, hout, hrd, htk, ?_, fun hlt => ?_⟩
  · unfold expectedRows
    rw [← detector_records rs hr hok hc]
    have hsum : (cutEvery (mb * 131072) (wordsOf (detectorFile rs)).length).sum = (wordsOf (detectorFile rs)).length := by
      generalize (wordsOf (detectorFile rs)).length = n
      have := Nat.div_add_mod' n (mb * 131072)
      simpa [cutEvery] using this
    have := recordsCut_sublist (wordsOf (detectorFile rs)) 0 0 (Nat.le_refl _)
      (cutEvery (mb * 131072) (wordsOf (detectorFile rs)).length)
    rw [hsum] at this
    exact this.map _
  · have hl : (wordsOf (detectorFile rs)).length < mb * 131072 := by
      have : (detectorFile rs).length = 8 * (wordsOf (detectorFile rs)).length := by
        rw [detectorFile, wordsOf_streamBytes, streamBytes_length]
      omega
    unfold expectedRows cutEvery
    rw [Nat.div_eq_of_lt hl, Nat.mod_eq_of_lt hl, ← detector_records rs hr hok hc]
    simp [recordsCut]

/-! ## Where the older readers go wrong -/

/-- C100 is false for `readTimepix3RawData`: the time of flight of a pixel 10 ticks after the trigger at 1000 is 1010. -/
theorem c100_false_period : ∃ rs : List Readout, (∀ r ∈ rs, r.Fits) ∧ AllTimelyL ⟨0, 0⟩ (rs.flatMap Readout.signals) ∧
    SlowSteps 0 (pixelTimes (rs.flatMap Readout.signals)) ∧ (everyReadout ⟨0, 0⟩ rs).map Hit.tof = [some 10#32] ∧
    ∃ hits, readTimepix3RawData (detectorFile rs) = .ok hits ∧ hits.map Hit.tof = [some 1010#32] := by
  have e : readTimepix3RawData (detectorFile [⟨0, [.trigger 1000, .pixel 1010 3 4 5 6]⟩]) =
      .ok [{ trueHit 0 1000 1010 3 4 5 6 with tof := some 1010#32 }] := by decide +kernel
  refine ⟨[⟨0, [.trigger 1000, .pixel 1010 3 4 5 6]⟩], ?_, ?_, ?_, by decide +kernel, _, e, rfl⟩
  · simp only [List.mem_singleton, forall_eq]
    exact ⟨by decide, by decide⟩
  · norm_num [AllTimelyL, Signal.TimelyL, Past.after, PixelOk]
  · exact .cons _ _ _ (by norm_num) (by norm_num) (.nil _)

/-- A pixel that fires just before a clock but is sent after it is dated 2^30 ticks (26.8 s) too late by the older readers. -/
theorem c100_false_before : ∃ rs : List Readout, (∀ r ∈ rs, r.Fits) ∧
    (everyReadout ⟨0, 0⟩ rs).map (fun h => (h.spidertime, h.tof)) = [(99990#64, some 98990#32)] ∧
    ∃ hits, parseRawBytesToHits (detectorFile rs) = .ok hits ∧
      hits.map (fun h => (h.spidertime, h.tof)) = [(1073841814#64, some 1073840814#32)] := by
  have e : (match parseRawBytesToHits (detectorFile [⟨0, [.trigger 1000, .clock 100000, .pixel 99990 3 4 5 6]⟩]) with
      | .ok hits => decide (hits.map (fun h => (h.spidertime, h.tof)) = [(1073841814#64, some 1073840814#32)])
      | _ => false) = true := by decide +kernel
  refine ⟨[⟨0, [.trigger 1000, .clock 100000, .pixel 99990 3 4 5 6]⟩], ?_, by decide +kernel, ?_⟩
  · simp only [List.mem_singleton, forall_eq]
    exact ⟨by decide, by decide⟩
  · generalize parseRawBytesToHits _ = r at e
    match r, e with
    | .ok hits, e => exact ⟨hits, rfl, of_decide_eq_true e⟩

/-! ## The hypotheses -/

theorem exReadouts_ok : ∀ r ∈ exReadouts, r.Ok := by
  intro r hr
  simp only [exReadouts, List.mem_cons, List.not_mem_nil, or_false] at hr
  rcases hr with rfl | rfl
  · exact ⟨by decide, by decide +kernel, by decide +kernel⟩
  · exact ⟨by decide, by decide +kernel, by decide +kernel⟩

/-- Of `c100_parse`, `c100_stream_partial`, `c100_read_partial` and `c100_clocks`; the eight hits of two chips and a clock. -/
example : (∀ r ∈ exReadouts, r.Fits) ∧ AllTimelyL ⟨0, 0⟩ (exReadouts.flatMap Readout.signals) ∧
    ¬ StartsTPX ((fun _ => 0#64) ((detectorFile exReadouts).length / 8)) ∧
    SlowSteps 0 (pixelTimes (exReadouts.flatMap Readout.signals)) ∧ (∀ u ∈ pixelTimes (exReadouts.flatMap Readout.signals), u < 2 ^ 64) ∧
    (∀ r ∈ exReadouts, ∀ t, .clock t ∈ r.signals → 0 < t ∧ t < 2 ^ 48) ∧ fileClocks 0 exReadouts = [(0, 20000000, 16)] ∧
    (everyReadout ⟨0, 0⟩ exReadouts).length = 8 := by
  refine ⟨fun r hr => ⟨(exReadouts_ok r hr).chip, (exReadouts_ok r hr).length⟩, ?_, by decide, ?_, by decide, ?_, by decide, by decide⟩
  · norm_num [exReadouts, AllTimelyL, Signal.TimelyL, Past.after, PixelOk]
  · have : pixelTimes (exReadouts.flatMap Readout.signals) =
        [20000200, 20000201, 20000202, 20000201, 20000900, 20000900, 20000901, 20000902] := rfl
    rw [this]
    repeat first | exact .nil _ | refine .cons _ _ _ (by norm_num) (by norm_num) ?_
  · intro r hr t ht
    simp only [exReadouts, List.mem_cons, List.not_mem_nil, or_false] at hr
    rcases hr with rfl | rfl
    · simp at ht; omega
    · simp at ht

/-- Of `c100_extractor_partial`: the program writes the clock of the file. -/
example : (match gdcMain ⟨id, fun _ => true, fun _ => true, fun _ => true, 1000⟩ ["-i".toList, "a".toList, "-ob".toList]
        (Function.update (fun _ => none) ['a'] (some (detectorFile exReadouts))) with
      | .ok (c, f) => decide (c = 0 ∧ (f ['b']).bind readCsv? = some [(0, 20000000, 16, 500000000)])
      | _ => false) = true := by decide +kernel

end Verif.Props
