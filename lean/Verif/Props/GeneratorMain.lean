import Verif.Model.GeneratorMain
import Verif.Props.Hit
import Verif.Props.LegacyStream

/-!
# C106: the generator of test data checks its file
-/

namespace Verif.Props

open Verif Verif.Spec

/-- Counters of the packet fit their fields. -/
def TimesFit (a : GenPacket) : Prop := a.spider.toNat < 2 ^ 16 ∧ a.toa.toNat < 2 ^ 14

theorem genWord_spider (a : GenPacket) : a.word.setWidth 16 = a.spider.setWidth 16 := by
  apply BitVec.eq_of_getLsbD_eq
  intro i hi
  unfold GenPacket.word packPixelHit
  interval_cases i <;> simp

theorem genWord_toa (a : GenPacket) : (a.word >>> 30).setWidth 16 &&& 0x3FFF#16 = a.toa.setWidth 16 &&& 0x3FFF#16 := by
  apply BitVec.eq_of_getLsbD_eq
  intro i hi
  unfold GenPacket.word packPixelHit
  interval_cases i <;> simp

theorem readTime_word (a : GenPacket) : genReadTime a.word = a.spider.toNat % 2 ^ 16 * 2 ^ 14 + a.toa.toNat % 2 ^ 14 := by
  unfold genReadTime
  simp only
  rw [genWord_spider, genWord_toa]
  have h1 : ((a.spider.setWidth 16 &&& 0xFFFF#16).setWidth 32 : U32).toNat = a.spider.toNat % 2 ^ 16 := by bits_to_nat; omega
  have h2 : ((a.toa.setWidth 16 &&& 0x3FFF#16).setWidth 32 : U32).toNat = a.toa.toNat % 2 ^ 14 := by bits_to_nat; omega
  rw [BitVec.toNat_or, BitVec.toNat_shiftLeft, h1, h2, Nat.shiftLeft_eq,
    Nat.mod_eq_of_lt (by have := Nat.mod_lt a.spider.toNat (show 2 ^ 16 > 0 by norm_num); omega),
    or_eq_add _ _ 14 (by omega) (Nat.mod_lt _ (by norm_num))]

/-- C106, one packet: with counters that fit their fields the time read is the time printed on writing, whatever the other fields. -/
theorem c106_time (a : GenPacket) (h : TimesFit a) :
    genReadTime a.word = a.printed ∧ a.printed = a.spider.toNat * 2 ^ 14 + a.toa.toNat := by
  obtain ⟨h1, h2⟩ := h
  have e : a.printed = a.spider.toNat * 2 ^ 14 + a.toa.toNat := by
    unfold GenPacket.printed
    rw [BitVec.toNat_or, BitVec.toNat_shiftLeft, Nat.shiftLeft_eq, Nat.mod_eq_of_lt (by omega), or_eq_add _ _ 14 (by omega) h2]
  rw [readTime_word, e, Nat.mod_eq_of_lt h1, Nat.mod_eq_of_lt h2]
  exact ⟨rfl, rfl⟩

/-- A time that fits 30 bits is the only one that the check can confirm. -/
theorem c106_time_small (a : GenPacket) (h : genReadTime a.word = a.printed) : a.printed < 2 ^ 30 := by
  rw [← h, readTime_word]
  have := Nat.mod_lt a.spider.toNat (show 2 ^ 16 > 0 by norm_num)
  have := Nat.mod_lt a.toa.toNat (show 2 ^ 14 > 0 by norm_num)
  omega

/-- C106 is false for counters beyond their fields: 2^30 ticks are written as 0. -/
theorem c106_false_time : genReadTime (GenPacket.word ⟨0x10000#64, 0, 0, 0, 0⟩) = 0 ∧ GenPacket.printed ⟨0x10000#64, 0, 0, 0, 0⟩ = 2 ^ 30 := by
  decide +kernel

/-- The file as a stream of one chunk. -/
def genChunk (numBytes : U64) (ps : List GenPacket) : Chunk :=
  ⟨packDataHeader 0x54#64 0x50#64 0x58#64 0x33#64 0#64 0#64 numBytes, ps.map GenPacket.word⟩

theorem genFile_eq (numBytes : U64) (ps : List GenPacket) :
    bytesOf (packDataHeader 0x54#64 0x50#64 0x58#64 0x33#64 0#64 0#64 numBytes) ++ ps.flatMap (fun a => bytesOf a.word) =
      streamBytes [genChunk numBytes ps] := by
  simp [streamBytes, streamWords, genChunk, List.flatMap_map]

theorem genFile_length (numBytes : U64) (ps : List GenPacket) : (streamBytes [genChunk numBytes ps]).length = 8 * (ps.length + 1) := by
  rw [streamBytes_length]
  simp [streamWords, genChunk]

theorem wordsOf_cut (l : Bytes) (n : Nat) : wordsOf (l.take n) = (wordsOf l).take (min n l.length / 8) := by
  have h := wordsOf_take (l.take n) (min n l.length / 8) (by rw [List.length_take])
  have h1 : (wordsOf (l.take n)).take (min n l.length / 8) = wordsOf (l.take n) :=
    List.take_of_length_le (by rw [wordsOf_length, List.length_take])
  rw [h1, List.take_take, Nat.min_eq_left (by omega : 8 * (min n l.length / 8) ≤ n), wordsOf_take l _ (by omega)] at h
  exact h.symm

/-- C106: the times printed on reading are the times printed on writing, all of them if there is room for the file, otherwise the first
ones.  The exit code is 0 also when the file is cut. -/
theorem c106_check (room : Nat) (numBytes : U64) (ps : List GenPacket) (hps : ∀ a ∈ ps, TimesFit a) (old : Option Bytes) :
    (generator true true room numBytes ps old).code = 0 ∧
    (generator true true room numBytes ps old).printed = ps.map (fun a => a.spider.toNat * 2 ^ 14 + a.toa.toNat) ∧
    (generator true true room numBytes ps old).checked =
      (generator true true room numBytes ps old).printed.take (room / 8 - 1) ∧
    (generator true true room numBytes ps old).file = some ((streamBytes [genChunk numBytes ps]).take room) := by
  unfold generator
  simp only [if_true]
  rw [genFile_eq]
  refine ⟨trivial, ?_, ?_, rfl⟩
  · exact List.map_congr_left fun a ha => (c106_time a (hps a ha)).2
  · rw [wordsOf_cut, wordsOf_streamBytes, genFile_length]
    have e : streamWords [genChunk numBytes ps] =
        packDataHeader 0x54#64 0x50#64 0x58#64 0x33#64 0#64 0#64 numBytes :: ps.map GenPacket.word := by
      simp [streamWords, genChunk]
    rw [e]
    have hm : ps.map (fun a => genReadTime a.word) = ps.map GenPacket.printed :=
      List.map_congr_left fun a ha => (c106_time a (hps a ha)).1
    rw [← hm, List.drop_take, List.drop_one, List.tail_cons, ← List.map_take, ← List.map_take, List.map_map]
    by_cases hr : room ≤ 8 * (ps.length + 1)
    · rw [Nat.min_eq_left hr]
      rfl
    · rw [Nat.min_eq_right (by omega), List.take_of_length_le (by omega), List.take_of_length_le (by omega)]
      rfl

/-- C106: the check finds every packet exactly if there is room for the file. -/
theorem c106_complete (room : Nat) (numBytes : U64) (ps : List GenPacket) (hps : ∀ a ∈ ps, TimesFit a) (hne : ps ≠ []) (old : Option Bytes) :
    (generator true true room numBytes ps old).checked = (generator true true room numBytes ps old).printed ↔ 8 * (ps.length + 1) ≤ room := by
  obtain ⟨-, h2, h3, -⟩ := c106_check room numBytes ps hps old
  rw [h3, List.take_eq_self_iff, h2, List.length_map]
  have := List.length_pos_iff.mpr hne
  omega

/-- The upper four of the eight bits for the fine counter fall on the lowest bits of the time over threshold. -/
theorem word_overlap (sp ft tot toa pix : U64) :
    packPixelHit sp ft tot toa pix = packPixelHit sp (ft &&& 0xF#64) (tot ||| ((ft >>> 4) &&& 0xF#64)) toa pix := by
  apply BitVec.eq_of_getLsbD_eq
  intro i hi
  unfold packPixelHit
  interval_cases i <;> simp [Bool.or_comm]

/-- The fields of the packet as they can be read: those given, but the upper half of the fine counter is joined to the time over threshold. -/
structure ReadsAs (a : GenPacket) (h : Hit) : Prop where
  time : h.spidertime.toNat % 2 ^ 30 = a.printed
  tot : h.tot = ((a.tot.toNat ||| a.ftoa.toNat / 16 : Nat) : Int)
  toa : h.toa = a.toa.toNat
  ftoa : h.ftoa = (a.ftoa.toNat % 16 : Nat)

/-- All numbers fit the bits that are taken of them. -/
def BitsFit (a : GenPacket) : Prop := TimesFit a ∧ a.ftoa.toNat < 2 ^ 8 ∧ a.tot.toNat < 2 ^ 10 ∧ a.pix.toNat < 2 ^ 16

theorem genWord_hit (a : GenPacket) (h : BitsFit a) (r : Rollover) (chip : Int) :
    IsHitPacket a.word ∧ clock30 a.word = a.printed ∧ ReadsAs a (packetToHitAlt a.word r chip).1 := by
  obtain ⟨⟨h1, h2⟩, h3, h4, h5⟩ := h
  have e1 : (a.ftoa &&& 0xF#64).toNat = a.ftoa.toNat % 16 := by bits_to_nat
  have e2 : (a.tot ||| ((a.ftoa >>> 4) &&& 0xF#64)).toNat = a.tot.toNat ||| a.ftoa.toNat / 16 := by
    rw [BitVec.toNat_or]
    congr 1
    bits_to_nat
    omega
  have e3 : a.tot.toNat ||| a.ftoa.toNat / 16 < 2 ^ 10 := Nat.or_lt_two_pow h4 (by omega)
  have hw : a.word = packPixelHit a.spider (a.ftoa &&& 0xF#64) (a.tot ||| ((a.ftoa >>> 4) &&& 0xF#64)) a.toa a.pix := word_overlap ..
  obtain ⟨c1, -, -, c2, c3, c4, -, -, -, c5, -⟩ := c03_roundtrip a.spider (a.ftoa &&& 0xF#64) (a.tot ||| ((a.ftoa >>> 4) &&& 0xF#64))
    a.toa a.pix 0 0 chip h1 (by rw [e1]; omega) (by rw [e2]; exact e3) h2 h5
  rw [← hw] at c1 c2 c3 c4 c5
  rw [← (c106_time a ⟨h1, h2⟩).2] at c5
  obtain ⟨⟨-, -, s3, s4, s5⟩, -, -⟩ := c49_alt a.word 0 0 chip r
  refine ⟨(isHit_iff _).mp c1, c5, ?_, ?_, ?_, ?_⟩
  · rw [(alt_toNat a.word r chip).2.1, c5]
    have := (c106_time a ⟨h1, h2⟩).2
    omega
  · rw [s3, c2, e2]
  · rw [s4, c3]
  · rw [s5, c4, e1]

theorem altRun_gen (ps : List GenPacket) (hps : ∀ a ∈ ps, BitsFit a) (r : Rollover) (chip : Int) :
    List.Forall₂ ReadsAs ps (altRun r (ps.map fun a => (chip, a.word))) := by
  induction ps generalizing r with
  | nil => exact .nil
  | cons a ps ih => exact .cons (genWord_hit a (hps a (by simp)) r chip).2.2 (ih (fun a ha => hps a (by simp [ha])) _)

theorem genChunk_packets (ps : List GenPacket) (hps : ∀ a ∈ ps, BitsFit a) (hlen : ps.length < 2 ^ 13) :
    (genChunk (BitVec.ofNat 64 (8 * ps.length)) ps).WellFormed ∧
    (chunkPackets [genChunk (BitVec.ofNat 64 (8 * ps.length)) ps]).filter (fun p => IsHitPacket p.2) = ps.map fun a => (0, a.word) := by
  have hh := packDataHeader_toNat 0x33#64 0#64 0#64 (BitVec.ofNat 64 (8 * ps.length)) (by decide) (by decide) (by decide)
    (by rw [BitVec.toNat_ofNat]; omega)
  have hn : (BitVec.ofNat 64 (8 * ps.length)).toNat = 8 * ps.length := by rw [BitVec.toNat_ofNat]; omega
  rw [hn] at hh
  have d1 : (0x33#64 : U64).toNat = 0x33 := by decide
  have d2 : (0#64 : U64).toNat = 0 := by decide
  rw [d1, d2] at hh
  have hw : (genChunk (BitVec.ofNat 64 (8 * ps.length)) ps).WellFormed ∧
      headerChipId (genChunk (BitVec.ofNat 64 (8 * ps.length)) ps).header = 0 := by
    unfold Chunk.WellFormed StartsTPX headerChipId genChunk field
    simp only [List.length_map]
    rw [hh]
    generalize ps.length = l at *
    refine ⟨⟨by omega, by omega⟩, ?_⟩
    rw [if_pos (by omega)]
    omega
  refine ⟨hw.1, ?_⟩
  unfold chunkPackets
  rw [List.flatMap_cons, List.flatMap_nil, List.append_nil, hw.2]
  show ((ps.map GenPacket.word).map _).filter _ = _
  rw [List.map_map, List.filter_eq_self.mpr]
  · rfl
  · intro p hp
    obtain ⟨a, ha, rfl⟩ := List.mem_map.mp hp
    simpa using (genWord_hit a (hps a ha) ⟨0#64, 0#64⟩ 0).1

/-- C106: the file of the generator, with the right number of bytes in the header, read by the older library: one hit for every packet,
in order, with its fields and with the time printed, up to turns of the clock. -/
theorem c106_read (room : Nat) (ps : List GenPacket) (hps : ∀ a ∈ ps, BitsFit a) (hlen : ps.length < 2 ^ 13)
    (hroom : 8 * (ps.length + 1) ≤ room) (old : Option Bytes) :
    ∃ file hits, (generator true true room (BitVec.ofNat 64 (8 * ps.length)) ps old).file = some file ∧
      readTimepix3RawData file = .ok hits ∧ List.Forall₂ ReadsAs ps hits := by
  obtain ⟨h1, h2⟩ := genChunk_packets ps hps hlen
  refine ⟨_, _, (c106_check room _ ps (fun a ha => (hps a ha).1) old).2.2.2, ?_, altRun_gen ps hps ⟨0#64, 0#64⟩ 0⟩
  rw [List.take_of_length_le (by rw [genFile_length]; exact hroom), c56_read _ (by simpa using h1), h2]

/-- C106: if the times printed come from true times, less than half a turn of the clock apart, the older library recovers the true times. -/
theorem c106_true_times (room : Nat) (ps : List GenPacket) (hps : ∀ a ∈ ps, BitsFit a) (hlen : ps.length < 2 ^ 13)
    (hroom : 8 * (ps.length + 1) ≤ room) (old : Option Bytes) (t : Nat) (ts : List Nat) (ht : t < 2 ^ 30) (hs : SlowSteps t ts)
    (hts : ∀ u ∈ ts, u < 2 ^ 64) (hp : ps.map GenPacket.printed = (t :: ts).map (· % 2 ^ 30)) :
    ∃ file hits, (generator true true room (BitVec.ofNat 64 (8 * ps.length)) ps old).file = some file ∧
      readTimepix3RawData file = .ok hits ∧ hits.map (fun h => h.spidertime.toNat) = t :: ts := by
  obtain ⟨h1, h2⟩ := genChunk_packets ps hps hlen
  obtain ⟨hits, h3, h4⟩ := c56_read_times [genChunk (BitVec.ofNat 64 (8 * ps.length)) ps] (by simpa using h1) t ts ht hs hts (by
    rw [h2, List.map_map, ← hp]
    exact List.map_congr_left fun a ha => (genWord_hit a (hps a ha) ⟨0#64, 0#64⟩ 0).2.1)
  refine ⟨_, hits, (c106_check room _ ps (fun a ha => (hps a ha).1) old).2.2.2, ?_, h4⟩
  rw [List.take_of_length_le (by rw [genFile_length]; exact hroom), h3]

/-- The packets of `main` meet the conditions; the header has the right number of bytes. -/
example : rolloverPackets.length = 26 ∧ BitVec.ofNat 64 (8 * rolloverPackets.length) = 208#64 ∧ (∀ a ∈ rolloverPackets, BitsFit a) := by
  refine ⟨by decide, by decide, ?_⟩
  unfold BitsFit TimesFit
  decide

/-- Turning the clock forward and back: the times of the packets of `main` from the third on, with the turn that the test expects. -/
example : SlowSteps 1073741823 [262143 + 2 ^ 30, 4194303 + 2 ^ 30, 67108863 + 2 ^ 30, 201326591 + 2 ^ 30, 1006649343] :=
  .cons _ _ _ (by norm_num) (by norm_num) (.cons _ _ _ (by norm_num) (by norm_num) (.cons _ _ _ (by norm_num) (by norm_num)
    (.cons _ _ _ (by norm_num) (by norm_num) (.cons _ _ _ (by norm_num) (by norm_num) (.nil _)))))

/-- C106 is false for a fine counter of more than four bits: it changes the time over threshold that is read. -/
theorem c106_false_ftoa : (match readTimepix3RawData (match (generator true true 16 8#64 [⟨1, 0xFF, 0, 1, 0⟩] none).file with
      | some f => f | none => []) with
    | .ok hs => hs.map fun h => (h.tot, h.ftoa)
    | _ => []) = [(15, 15)] := by
  decide +kernel

/-- C106 is false when the disk is full: the program ends with 0 and its check prints less. -/
theorem c106_false_room : (generator true true 20 208#64 rolloverPackets none).code = 0 ∧
    (generator true true 20 208#64 rolloverPackets none).checked = [1006649343] := by
  decide +kernel

/-- The words of the file that comes with the sources (resources/data/rollover_test_data.tpx3). -/
def shippedWords : List U64 :=
  [0x00D0000033585054#64, 0xB9876FFFFFFFF000#64, 0xB9876FFFFFFFFF00#64, 0xB9876FFFFFFFFFFF#64, 0xB9876FFFFFFF000F#64,
   0xB9876FFFFFFF00FF#64, 0xB9876FFFFFFF0FFF#64, 0xB9876FFFFFFF2FFF#64, 0xB9876FFFFFFF000F#64, 0xB9876FFFFFFF3FFF#64,
   0xB9876FFFFFFF00FF#64, 0xB9876FFFFFFF0FFF#64, 0xB9876FFFFFFF1FFF#64, 0xB9876FFFFFFF2FFF#64, 0xB9876FFFFFFF000F#64,
   0xB9876FFFFFFF00FF#64, 0xB9876FFFFFFF0FFF#64, 0xB9876FFFFFFF2FFF#64, 0xB9876FFFFFFFF000#64, 0xB9876FFFFFFFFF00#64,
   0xB9876FFFFFFFFFFF#64, 0xB9876FFFFFFF000F#64, 0xB9876FFFFFFF00FF#64, 0xB9876FFFFFFF0FFF#64, 0xB9876FFFFFFF1FFF#64,
   0xB9876FFFFFFF2FFF#64, 0xB9876FFFFFFF3FFF#64]

/-- The times that the test of the older library asks for (test_tpx3.cpp:66-117). -/
def testedTimes : List Nat :=
  [1006649343, 1069563903, 1073741823, 1074003967, 1077936127, 1140850687, 1275068415, 1074003967, 1342177279,
   1077936127, 1140850687, 1207959551, 1275068415, 1074003967, 1077936127, 1140850687, 1275068415, 1006649343,
   1069563903, 1073741823, 1074003967, 1077936127, 1140850687, 1207959551, 1275068415, 1342177279]

/-- C106: the file that comes with the sources is what the generator writes, whatever was there before. -/
theorem c106_shipped (room : Nat) (hroom : 216 ≤ room) (old : Option Bytes) :
    (generator true true room 208#64 rolloverPackets old).file = some (shippedWords.flatMap bytesOf) := by
  have hfit : ∀ a ∈ rolloverPackets, TimesFit a := by
    unfold TimesFit
    decide
  rw [(c106_check room _ _ hfit old).2.2.2, List.take_of_length_le (by rw [genFile_length]; exact hroom)]
  decide +kernel

/-- C106: the older library reads from it the times that its test asks for. -/
theorem c106_tested :
    ∃ hits, readTimepix3RawData (shippedWords.flatMap bytesOf) = .ok hits ∧ hits.map (fun h => h.spidertime.toNat) = testedTimes := by
  have hfit : ∀ a ∈ rolloverPackets, BitsFit a := by
    unfold BitsFit TimesFit
    decide
  obtain ⟨file, hits, h1, h2, h3⟩ := c106_true_times 216 rolloverPackets hfit (by decide) (by decide) none 1006649343 (testedTimes.drop 1) (by norm_num)
    (by
      simp only [testedTimes, List.drop_succ_cons, List.drop_zero]
      repeat' first | exact .nil _ | refine .cons _ _ _ (by norm_num) (by norm_num) ?_)
    (by decide) (by decide)
  have he : (generator true true 216 (BitVec.ofNat 64 (8 * rolloverPackets.length)) rolloverPackets none).file = some (shippedWords.flatMap bytesOf) :=
    c106_shipped 216 le_rfl none
  rw [he, Option.some.injEq] at h1
  exact ⟨hits, h1 ▸ h2, h3⟩

/-- C106: a file that cannot be opened for writing is left as it was, and nothing is printed; one that cannot be read again is complete,
and nothing of it is checked.  In both cases the program ends with 1. -/
theorem c106_open (canRead : Bool) (room : Nat) (numBytes : U64) (ps : List GenPacket) (hps : ∀ a ∈ ps, TimesFit a) (old : Option Bytes) :
    generator false canRead room numBytes ps old = ⟨1, [], [], old⟩ ∧
    generator true false room numBytes ps old =
      ⟨1, ps.map (fun a => a.spider.toNat * 2 ^ 14 + a.toa.toNat), [], some ((streamBytes [genChunk numBytes ps]).take room)⟩ := by
  refine ⟨rfl, ?_⟩
  obtain ⟨-, h2, -, h4⟩ := c106_check room numBytes ps hps old
  rw [← h4, ← h2]
  rfl

end Verif.Props
