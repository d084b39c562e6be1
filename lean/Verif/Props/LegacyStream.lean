import Verif.Props.Legacy
import Verif.Props.Scan

/-! # Hits of the legacy readers on complete streams (C56, C57) -/

namespace Verif.Props

open Verif Verif.Spec

/-! ## C56: hits of the legacy readers -/

def readAll (ps : List (Int × U64)) (s : LegacyState) : LegacyState := ps.foldl (fun s p => readPacket p.1 p.2 s) s
def parseAll (ps : List (Int × U64)) (s : LegacyState) : LegacyState := ps.foldl (fun s p => parsePacket p.1 p.2 s) s

theorem chunkPackets_cons (c : Chunk) (cs : List Chunk) :
    chunkPackets (c :: cs) = c.packets.map (fun w => (headerChipId c.header, w)) ++ chunkPackets cs := by
  simp [chunkPackets]

theorem readPacket_hit (chip : Int) (w : U64) (s : LegacyState) (h : IsHitPacket w) :
    readPacket chip w s =
      { s with roll := (packetToHitAlt w s.roll chip).2, hits := s.hits ++ [(packetToHitAlt w s.roll chip).1] } := by
  unfold readPacket
  rw [if_neg (fun h1 => (trigger_not_hit w ((isTdc_iff w).mp h1)).1 h),
    if_neg (fun h1 => global_not_hit w ((isGdc_iff w).mp h1) h), if_pos ((isHit_iff w).mpr h)]

theorem readPacket_other (chip : Int) (w : U64) (s : LegacyState) (h : ¬ IsHitPacket w) :
    (readPacket chip w s).roll = s.roll ∧ (readPacket chip w s).hits = s.hits := by
  unfold readPacket
  by_cases h1 : isTdc w = true
  · rw [if_pos h1]; exact ⟨rfl, rfl⟩
  · rw [if_neg h1]
    by_cases h2 : isGdc w = true
    · rw [if_pos h2]; exact ⟨rfl, rfl⟩
    · rw [if_neg h2, if_neg (fun h3 => h ((isHit_iff w).mp h3))]; exact ⟨rfl, rfl⟩

theorem readAll_hits (ps : List (Int × U64)) (s : LegacyState) :
    (readAll ps s).hits = s.hits ++ altRun s.roll (ps.filter fun p => IsHitPacket p.2) := by
  induction ps generalizing s with
  | nil => simp [readAll, altRun]
  | cons p ps ih =>
    have e : readAll (p :: ps) s = readAll ps (readPacket p.1 p.2 s) := rfl
    rw [e, ih]
    by_cases h : IsHitPacket p.2
    · rw [List.filter_cons_of_pos (by simpa using h), altRun, readPacket_hit _ _ _ h]
      simp
    · rw [List.filter_cons_of_neg (by simpa using h), (readPacket_other _ _ s h).1, (readPacket_other _ _ s h).2]

theorem drop_stream (buf : Bytes) (pos : Nat) (c : Chunk) (cs : List Chunk) (h : buf.drop pos = streamBytes (c :: cs)) :
    wordsOf (buf.drop pos) = c.header :: (c.packets ++ streamWords cs) ∧
    wordsOf (buf.drop (pos + 8)) = c.packets ++ streamWords cs ∧
    buf.drop (pos + 8 * c.packets.length + 8) = streamBytes cs ∧
    buf.length = pos + 8 * c.packets.length + 8 + 8 * (streamWords cs).length := by
  have hw : wordsOf (buf.drop pos) = c.header :: (c.packets ++ streamWords cs) := by
    rw [h, wordsOf_streamBytes, streamWords_cons]
  have hl : (buf.drop pos).length = 8 * (1 + c.packets.length + (streamWords cs).length) := by
    rw [h, streamBytes_length, streamWords_cons, List.length_cons, List.length_append]; omega
  rw [List.length_drop] at hl
  refine ⟨hw, ?_, ?_, by omega⟩
  · have := wordsOf_drop (buf.drop pos) 1
    rw [hw, List.drop_drop] at this
    exact this
  · have e : pos + 8 * c.packets.length + 8 = pos + 8 * (1 + c.packets.length) := by omega
    rw [e, ← List.drop_drop, h, streamBytes, streamWords_cons]
    have := drop_flatMap_bytesOf (c.header :: (c.packets ++ streamWords cs)) [] (1 + c.packets.length)
      (by simp only [List.length_cons, List.length_append]; omega)
    rw [List.append_nil, List.append_nil] at this
    rw [this, Nat.add_comm 1, List.drop_succ_cons, List.drop_left, streamBytes]

theorem readLoop_stream (cs : List Chunk) (hcs : ∀ c ∈ cs, c.WellFormed) (buf : Bytes) (fuel pos : Nat) (s : LegacyState)
    (hp : pos ≤ buf.length) (hf : (buf.length - pos) / 8 < fuel) (h : buf.drop pos = streamBytes cs) :
    readLoop buf fuel pos s = .ok (readAll (chunkPackets cs) s) := by
  induction cs generalizing fuel pos s with
  | nil =>
    have hl : (buf.drop pos).length = 0 := by rw [h]; rfl
    rw [List.length_drop] at hl
    rcases fuel with _ | fuel
    · omega
    · rw [readLoop, if_pos (by omega)]; rfl
  | cons c cs ih =>
    obtain ⟨h1, h2, h3, h4⟩ := drop_stream buf pos c cs h
    have hc := hcs c (by simp)
    rcases fuel with _ | fuel
    · omega
    · have hw : headWord (buf.drop pos) = c.header := by
        have := wordsOf_cons (buf.drop pos) (by rw [List.length_drop]; omega)
        rw [h1] at this
        exact (List.cons.inj this).1.symm
      rw [readLoop, if_neg (by omega), wordAt_eq _ _ (by omega), hw]
      simp only
      rw [if_pos ((isHeader_iff_starts _).mpr hc.1), readPackets_eq, headerPackets_field, hc.2,
        Nat.mul_div_cancel_left _ (by omega), h2, if_pos (by simp), List.take_left]
      simp only
      rw [ih (fun d hd => hcs d (by simp [hd])) _ _ _ (by omega) (by omega) h3, headerChip_eq]
      unfold readAll
      rw [chunkPackets_cons, List.foldl_append, List.foldl_map]

/-- C56 for `readTimepix3RawData`: on every complete stream it returns the hits that `packetToHitAlt` gives for the hit
packets, in order and nothing else. -/
theorem c56_read (cs : List Chunk) (h : ∀ c ∈ cs, c.WellFormed) :
    readTimepix3RawData (streamBytes cs) =
      .ok (altRun ⟨0#64, 0#64⟩ ((chunkPackets cs).filter fun p => IsHitPacket p.2)) := by
  unfold readTimepix3RawData
  rw [readLoop_stream cs h _ _ _ _ (by omega) (by omega) (List.drop_zero ..)]
  simp only [Res.bind]
  rw [readAll_hits]
  rfl

/-- With C50: if the packets' clocks come from true times with small steps, the returned hits carry the true times. -/
theorem c56_read_times (cs : List Chunk) (h : ∀ c ∈ cs, c.WellFormed) (t : Nat) (ts : List Nat) (ht : t < 2 ^ 30)
    (hs : SlowSteps t ts) (hts : ∀ u ∈ ts, u < 2 ^ 64)
    (hps : ((chunkPackets cs).filter fun p => IsHitPacket p.2).map (fun p => clock30 p.2) =
      (t :: ts).map (· % 2 ^ 30)) :
    ∃ hits, readTimepix3RawData (streamBytes cs) = .ok hits ∧
      hits.map (fun h => h.spidertime.toNat) = t :: ts := by
  exact ⟨_, c56_read cs h, (c50_first_period t ts _ ht hs hts hps).1⟩

/-! ### `parseRawBytesToHits` -/

theorem legacyTdc_toNat (w gdc : U64) : (legacyTdc w gdc).toNat = triggerTime (field w 12 32) gdc.toNat :=
  updateTdcGdc_toNat w gdc

theorem legacyGdc_spec (w timer gdc : U64) (ht : timer.toNat < 2 ^ 32) :
    (legacyGdc 0xFFFFFFFFFFF#64 w timer gdc).1.toNat = (if field w 56 4 = 4 then field w 16 32 else timer.toNat) ∧
    (legacyGdc 0xFFFFFFFFFFF#64 w timer gdc).2.toNat =
      (if field w 56 4 = 5 then field w 16 16 * 2 ^ 32 + timer.toNat else gdc.toNat) := by
  have hsel : ((((w >>> 16) &&& 0xFFFFFFFFFFF#64) >>> 40) &&& 0xF#64).toNat = field w 56 4 := by
    unfold field; bits_to_nat; omega
  have hlow : (((w >>> 16) &&& 0xFFFFFFFFFFF#64) &&& 0xFFFFFFFF#64).toNat = field w 16 32 := by
    unfold field; bits_to_nat; omega
  have hhigh : ((((((w >>> 16) &&& 0xFFFFFFFFFFF#64) &&& 0xFFFF#64) <<< 32) &&& 0xFFFF00000000#64) |||
      timer).toNat = field w 16 16 * 2 ^ 32 + timer.toNat := by
    rw [BitVec.toNat_or, or_eq_add _ _ 32 _ ht]
    · unfold field; bits_to_nat; omega
    · bits_to_nat; omega
  unfold legacyGdc
  simp only
  generalize (((w >>> 16) &&& 0xFFFFFFFFFFF#64) >>> 40) &&& 0xF#64 = sel at *
  generalize ((w >>> 16) &&& 0xFFFFFFFFFFF#64) &&& 0xFFFFFFFF#64 = low at *
  generalize (((((w >>> 16) &&& 0xFFFFFFFFFFF#64) &&& 0xFFFF#64) <<< 32) &&& 0xFFFF00000000#64) |||
    timer = high at *
  have h4 : sel = 0x4#64 ↔ field w 56 4 = 4 := by rw [← BitVec.toNat_inj, hsel]; rfl
  have h5 : sel = 0x5#64 ↔ field w 56 4 = 5 := by rw [← BitVec.toNat_inj, hsel]; rfl
  by_cases c4 : sel = 0x4#64
  · have c4' := h4.mp c4
    rw [if_pos c4, if_pos c4', if_neg (by omega)]
    exact ⟨hlow, rfl⟩
  · rw [if_neg c4, if_neg (fun h => c4 (h4.mpr h))]
    by_cases c5 : sel = 0x5#64
    · rw [if_pos c5, if_pos (h5.mp c5)]
      exact ⟨rfl, hhigh⟩
    · rw [if_neg c5, if_neg (fun h => c5 (h5.mpr h))]
      exact ⟨rfl, rfl⟩

theorem parsePacket_spec (chip : Int) (w : U64) (s : LegacyState) (hc : s.clock.timer.toNat < 2 ^ 32) :
    (parsePacket chip w s).clock.times = nextL w s.clock.times ∧
    (parsePacket chip w s).clock.timer.toNat < 2 ^ 32 ∧
    (parsePacket chip w s).hits = s.hits ++ if IsHitPacket w then
      [legacyHit w (BitVec.ofNat 64 s.clock.times.tdc) (BitVec.ofNat 64 s.clock.times.gdc) chip] else [] := by
  unfold parsePacket nextL
  by_cases h1 : isTdc w = true
  · have h1' := (isTdc_iff w).mp h1
    rw [if_pos h1, if_pos h1', if_neg (trigger_not_hit w h1').1, List.append_nil]
    refine ⟨?_, hc, rfl⟩
    unfold Clock.times
    simp only
    rw [legacyTdc_toNat]
  · rw [if_neg h1, if_neg (fun h => h1 ((isTdc_iff w).mpr h))]
    by_cases h2 : isGdc w = true
    · have h2' := (isGdc_iff w).mp h2
      obtain ⟨u1, u2⟩ := legacyGdc_spec w s.clock.timer s.clock.gdc hc
      rw [if_pos h2, if_pos h2', if_neg (global_not_hit w h2'), List.append_nil]
      refine ⟨?_, ?_, rfl⟩
      · unfold Clock.times
        simp only
        rw [u1, u2]
        by_cases c4 : field w 56 4 = 4
        · rw [if_pos c4, if_pos c4, if_neg (by omega)]
        · rw [if_neg c4, if_neg c4]
          split_ifs <;> rfl
      · simp only
        rw [u1]
        split_ifs
        · unfold field; omega
        · exact hc
    · rw [if_neg h2, if_neg (fun h => h2 ((isGdc_iff w).mpr h))]
      by_cases h3 : isHit w = true
      · rw [if_pos h3, if_pos ((isHit_iff w).mp h3)]
        refine ⟨rfl, hc, ?_⟩
        unfold Clock.times
        simp only [BitVec.ofNat_toNat, BitVec.setWidth_eq]
      · rw [if_neg h3, if_neg (fun h => h3 ((isHit_iff w).mpr h)), List.append_nil]
        exact ⟨rfl, hc, rfl⟩

theorem parseAll_hits (ps : List (Int × U64)) (s : LegacyState) (hc : s.clock.timer.toNat < 2 ^ 32) :
    (parseAll ps s).hits = s.hits ++ passL s.clock.times ps := by
  induction ps generalizing s with
  | nil => simp [parseAll, passL]
  | cons p ps ih =>
    have e : parseAll (p :: ps) s = parseAll ps (parsePacket p.1 p.2 s) := rfl
    obtain ⟨h1, h2, h3⟩ := parsePacket_spec p.1 p.2 s hc
    rw [e, ih _ h2, h1, h3, passL, List.append_assoc]

theorem parseLoop_stream (cs : List Chunk) (hcs : ∀ c ∈ cs, c.WellFormed) (buf : Bytes) (fuel pos : Nat)
    (s : LegacyState) (hp : pos ≤ buf.length) (hf : (buf.length - pos) / 8 < fuel)
    (h : buf.drop pos = streamBytes cs) :
    parseLoop buf fuel pos s = .ok (parseAll (chunkPackets cs) s) := by
  induction cs generalizing fuel pos s with
  | nil =>
    have hl : (buf.drop pos).length = 0 := by rw [h]; rfl
    rw [List.length_drop] at hl
    rcases fuel with _ | fuel
    · omega
    · rw [parseLoop, if_neg (by omega)]; rfl
  | cons c cs ih =>
    obtain ⟨h1, h2, h3, h4⟩ := drop_stream buf pos c cs h
    have hc := hcs c (by simp)
    rcases fuel with _ | fuel
    · omega
    · by_cases hlast : pos + 8 < buf.length
      · have hw : headWord (buf.drop pos) = c.header := by
          have := wordsOf_cons (buf.drop pos) (by rw [List.length_drop]; omega)
          rw [h1] at this
          exact (List.cons.inj this).1.symm
        rw [parseLoop, if_pos hlast, wordAt_eq _ _ (by omega), hw]
        simp only
        rw [if_pos ((isHeader_iff_starts _).mpr hc.1), parsePackets_eq _ _ _ _ _ (by omega), headerPackets_field, hc.2,
          Nat.mul_div_cancel_left _ (by omega), h2, if_pos (by simp), List.take_left]
        simp only
        rw [ih (fun d hd => hcs d (by simp [hd])) _ _ _ (by omega) (by omega) h3, headerChip_eq]
        unfold parseAll
        rw [chunkPackets_cons, List.foldl_append, List.foldl_map]
      · -- a header without packets is the last word
        have hc0 : c.packets = [] := List.eq_nil_of_length_eq_zero (by omega)
        have hs0 : streamWords cs = [] := List.eq_nil_of_length_eq_zero (by omega)
        have hcs0 : cs = [] := by
          rcases cs with _ | ⟨d, ds⟩
          · rfl
          · rw [streamWords_cons] at hs0; simp at hs0
        rw [parseLoop, if_neg hlast, hcs0, chunkPackets_cons, hc0]
        rfl

/-- C56 for `parseRawBytesToHits`: on every complete stream it returns one hit per hit packet, in order, decoded with the
trigger and global times in force at the packet. -/
theorem c56_parse (cs : List Chunk) (h : ∀ c ∈ cs, c.WellFormed) :
    parseRawBytesToHits (streamBytes cs) = .ok (passL ⟨0, 0, 0⟩ (chunkPackets cs)) := by
  unfold parseRawBytesToHits
  rw [parseLoop_stream cs h _ _ _ _ (by omega) (by omega) (List.drop_zero ..)]
  simp only [Res.bind]
  rw [parseAll_hits _ _ (by decide)]
  rfl

theorem passL_pixels (t : Times) (ps : List (Int × U64)) :
    List.Forall₂ (fun h p => Decodes p.2 p.1 h) (passL t ps) (ps.filter fun p => IsHitPacket p.2) := by
  induction ps generalizing t with
  | nil => exact .nil
  | cons p ps ih =>
    rw [passL]
    by_cases h : IsHitPacket p.2
    · rw [if_pos h, List.filter_cons_of_pos (by simpa using h)]
      exact .cons (decodes_hit ..) (ih _)
    · rw [if_neg h, List.filter_cons_of_neg (by simpa using h)]
      exact ih _

theorem altRun_pixels (r : Rollover) (ps : List (Int × U64)) :
    List.Forall₂ (fun h p => Decodes p.2 p.1 h) (altRun r ps) ps := by
  induction ps generalizing r with
  | nil => exact .nil
  | cons p ps ih => exact .cons (decodes_hit ..) (ih _)

/-- C56, in terms of the packet layout only: both readers return exactly one hit per hit packet, in order, with the
position and raw values of the packet. -/
theorem c56_pixels (cs : List Chunk) (h : ∀ c ∈ cs, c.WellFormed) :
    ∃ h1 h2, readTimepix3RawData (streamBytes cs) = .ok h1 ∧ parseRawBytesToHits (streamBytes cs) = .ok h2 ∧
      List.Forall₂ (fun h p => Decodes p.2 p.1 h) h1 ((chunkPackets cs).filter fun p => IsHitPacket p.2) ∧
      List.Forall₂ (fun h p => Decodes p.2 p.1 h) h2 ((chunkPackets cs).filter fun p => IsHitPacket p.2) :=
  ⟨_, _, c56_read cs h, c56_parse cs h, altRun_pixels _ _, passL_pixels _ _⟩

/-! ## C57: legacy and fast hits -/

theorem passG_sublist (t t' : Times) (ps : List (Int × U64)) :
    ∃ hs, hs.Sublist (passL t' ps) ∧ List.Forall₂ SamePixel hs (passG t ps) := by
  induction ps generalizing t t' with
  | nil => exact ⟨[], .slnil, .nil⟩
  | cons p ps ih =>
    obtain ⟨hs, h1, h2⟩ := ih (nextG p.2 t) (nextL p.2 t')
    rw [passL, passG]
    by_cases hh : IsHitPacket p.2
    · rw [if_pos hh]
      by_cases hd : t.tdc ≠ 0 ∧ t.gdc ≠ 0
      · rw [if_pos ⟨hh, hd⟩]
        exact ⟨_ :: hs, h1.cons_cons _, .cons (c49_ctor p.2 _ _ _ _ p.1).1 h2⟩
      · rw [if_neg (fun h => hd h.2)]
        exact ⟨hs, h1.cons _, h2⟩
    · rw [if_neg hh, if_neg (fun h => hh h.1)]
      exact ⟨hs, h1, h2⟩

/-- C57: on every complete stream without look-alikes the hits of the fast library in global-clock mode are, in order and
pixel for pixel, some of the hits of the legacy library.  (Missing: the converse, `c57_false`.) -/
theorem c57_sublist_partial (cs : List Chunk) (hw : ∀ c ∈ cs, c.WellFormed) (hn : ∀ c ∈ cs, c.NoLookAlike) :
    ∃ bs c' hits hs, processBuffer .gdc (streamBytes cs) Clock.zero = .ok (bs, c') ∧
      parseRawBytesToHits (streamBytes cs) = .ok hits ∧ hs.Sublist hits ∧
      List.Forall₂ SamePixel hs (bs.flatMap Batch.hits) := by
  obtain ⟨bs, c', h1, h2, -, -⟩ := processBuffer_stream .gdc cs Clock.zero (by decide) hw hn
  obtain ⟨hs, h3, h4⟩ := passG_sublist Clock.zero.times ⟨0, 0, 0⟩ (streamPackets cs)
  refine ⟨bs, c', _, hs, h1, c56_parse cs hw, h3, ?_⟩
  rw [h2]
  exact h4

/-- The packet is not a global time of zero (the only one after which the libraries disagree about the time). -/
def GlobalNonzero : Times → List (Int × U64) → Prop
  | _, [] => True
  | t, p :: ps =>
    ¬ (IsGlobalPacket p.2 ∧ field p.2 56 4 = 5 ∧ field p.2 16 16 = 0 ∧ t.low = 0) ∧ GlobalNonzero (nextG p.2 t) ps

instance : (t : Times) → (ps : List (Int × U64)) → Decidable (GlobalNonzero t ps)
  | _, [] => by unfold GlobalNonzero; infer_instance
  | t, p :: ps => by
    unfold GlobalNonzero
    have := instDecidableGlobalNonzero (nextG p.2 t) ps
    infer_instance

theorem nextL_eq_nextG (w : U64) (t : Times)
    (h : ¬ (IsGlobalPacket w ∧ field w 56 4 = 5 ∧ field w 16 16 = 0 ∧ t.low = 0)) : nextL w t = nextG w t := by
  unfold nextL nextG
  by_cases h1 : IsTriggerPacket w
  · rw [if_pos h1, if_pos h1]
  · rw [if_neg h1, if_neg h1]
    by_cases h2 : IsGlobalPacket w
    · rw [if_pos h2, if_pos h2]
      by_cases h4 : field w 56 4 = 4
      · rw [if_pos h4, if_pos h4]
      · rw [if_neg h4, if_neg h4]
        by_cases h5 : field w 56 4 = 5
        · rw [if_pos h5, if_pos ⟨h5, by
            intro h0
            exact h ⟨h2, h5, by omega, by omega⟩⟩]
        · rw [if_neg h5, if_neg (fun h => h5 h.1)]
    · rw [if_neg h2, if_neg h2]

/-- Both hits come from the same packet, and their arrival times are equal or differ by one period of the 30-bit clock. -/
def SameUpToPeriod (h k : Hit) : Prop :=
  SamePixel h k ∧ (k.spidertime = h.spidertime ∨ k.spidertime = h.spidertime - 1073741824#64)

theorem passG_period (t : Times) (ps : List (Int × U64)) (h : GlobalNonzero t ps) :
    ∃ hs, hs.Sublist (passL t ps) ∧ List.Forall₂ SameUpToPeriod hs (passG t ps) := by
  induction ps generalizing t with
  | nil => exact ⟨[], .slnil, .nil⟩
  | cons p ps ih =>
    obtain ⟨hs, h1, h2⟩ := ih (nextG p.2 t) h.2
    rw [passL, passG, nextL_eq_nextG _ _ h.1]
    by_cases hh : IsHitPacket p.2
    · rw [if_pos hh]
      by_cases hd : t.tdc ≠ 0 ∧ t.gdc ≠ 0
      · rw [if_pos ⟨hh, hd⟩]
        refine ⟨_ :: hs, h1.cons_cons _, .cons ⟨(c49_ctor p.2 _ _ _ _ p.1).1, ?_⟩ h2⟩
        rw [c49_arrival]
        split_ifs
        · exact .inr rfl
        · exact .inl rfl
      · rw [if_neg (fun h => hd h.2)]
        exact ⟨hs, h1.cons _, h2⟩
    · rw [if_neg hh, if_neg (fun h => hh h.1)]
      exact ⟨hs, h1, h2⟩

/-- C57, arrival times: if no global time is zero, the common hits also agree in their arrival times up to one period of
the 30-bit clock. -/
theorem c57_arrival_partial (cs : List Chunk) (hw : ∀ c ∈ cs, c.WellFormed) (hn : ∀ c ∈ cs, c.NoLookAlike)
    (hg : GlobalNonzero ⟨0, 0, 0⟩ (chunkPackets cs)) :
    ∃ bs c' hits hs, processBuffer .gdc (streamBytes cs) Clock.zero = .ok (bs, c') ∧
      parseRawBytesToHits (streamBytes cs) = .ok hits ∧ hs.Sublist hits ∧
      List.Forall₂ SameUpToPeriod hs (bs.flatMap Batch.hits) := by
  obtain ⟨bs, c', h1, h2, -, -⟩ := processBuffer_stream .gdc cs Clock.zero (by decide) hw hn
  obtain ⟨hs, h3, h4⟩ := passG_period ⟨0, 0, 0⟩ (chunkPackets cs) hg
  refine ⟨bs, c', _, hs, h1, c56_parse cs hw, h3, ?_⟩
  rw [h2]
  exact h4

/-- A stream with global time 1, a trigger and a hit. -/
example : ∃ c : Chunk, c.WellFormed ∧ c.NoLookAlike ∧ GlobalNonzero ⟨0, 0, 0⟩ (chunkPackets [c]) ∧ c.packets.length = 4 :=
  ⟨⟨0x0020000033585054#64, [0x4400000000010000#64, 0x4500000000000000#64, 0x6F00000000005000#64, 0xB000000000000000#64]⟩,
    by decide, by
      intro w hw
      simp only [List.mem_cons, List.not_mem_nil, or_false] at hw
      rcases hw with rfl | rfl | rfl | rfl <;> decide, by decide, rfl⟩

/-- C57 is false as stated: of a hit packet before the first trigger the legacy library makes a hit, the fast one does not. -/
theorem c57_false : ∃ c : Chunk, c.WellFormed ∧ c.NoLookAlike ∧
    (∃ bs c', processBuffer .gdc (streamBytes [c]) Clock.zero = .ok (bs, c') ∧ bs.flatMap Batch.hits = []) ∧
    ∃ h, parseRawBytesToHits (streamBytes [c]) = .ok [h] := by
  let c : Chunk := ⟨0x0008000033585054#64, [0xB000000000000000#64]⟩
  have hw : c.WellFormed := by decide
  have hn : c.NoLookAlike := by
    intro w hw
    have : w = 0xB000000000000000#64 := by simpa [c] using hw
    subst this
    decide
  have hw' : ∀ d ∈ [c], d.WellFormed := by simpa using hw
  obtain ⟨bs, c', h1, h2, -, -⟩ := processBuffer_stream .gdc [c] Clock.zero (by decide) hw' (by simpa using hn)
  have hl := (passL_pixels ⟨0, 0, 0⟩ (chunkPackets [c])).length_eq
  have hl1 : ((chunkPackets [c]).filter fun p => IsHitPacket p.2).length = 1 := by decide
  rw [hl1] at hl
  obtain ⟨h, hh⟩ := List.length_eq_one_iff.mp hl
  refine ⟨c, hw, hn, ⟨bs, c', h1, ?_⟩, h, by rw [c56_parse [c] hw', hh]⟩
  rw [h2]
  decide

/-! ## C58: `fastParseTPX3Raw` -/

/-- C58: the result has one element per packet announced by a header, but every element is the default hit. -/
theorem c58_default_partial (buf : Bytes) (hits : List Hit) (h : fastParseTPX3Raw buf = .ok hits) :
    ∀ x ∈ hits, x = ⟨0, 0, 0, 0, 0, some 0#32, 0#64⟩ := by
  unfold fastParseTPX3Raw at h
  simp only at h
  split at h
  · injection h with h
    subst h
    intro x hx
    exact List.eq_of_mem_replicate hx
  · simp at h

/-- C58 is false as stated: for a stream with a single hit packet on chip 0 the result is one hit at (0, 0), where the
detector has no pixel of chip 0; the decoded hit is at (260, 0). -/
theorem c58_false : ∃ c : Chunk, c.WellFormed ∧
    (∃ h, fastParseTPX3Raw (streamBytes [c]) = .ok [h] ∧ h.x = 0) ∧
    ∃ h, parseRawBytesToHits (streamBytes [c]) = .ok [h] ∧ h.x = 260 := by
  refine ⟨⟨0x0008000033585054#64, [0xB000000000000000#64]⟩, by decide, ⟨defaultHit, by decide, rfl⟩, ?_⟩
  exact ⟨legacyHit 0xB000000000000000#64 0#64 0#64 0, by decide, by decide⟩

end Verif.Props
