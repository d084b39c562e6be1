import Verif.Spec.TimeRef
import Verif.Props.AnyRun
import Verif.Props.LegacyStream

/-!
# C129: what the choice of the time reference does to the hits
-/

namespace Verif.Props

open Verif Verif.Spec

theorem samePixel_modes (w tdc gdc tdc' : U64) (chip : Int) : SamePixel (hitTdc w tdc' chip) (hitGdc w tdc gdc chip) := by
  obtain ⟨h1, h2, -⟩ := c49_ctor w 0 0 tdc gdc chip
  obtain ⟨-, h3, -⟩ := c49_ctor w 0 0 tdc' gdc chip
  obtain ⟨a1, a2, a3, a4, a5⟩ := h1
  obtain ⟨b1, b2, b3, b4, b5⟩ := h3
  exact ⟨b1.symm.trans a1, b2.symm.trans a2, b3.symm.trans a3, b4.symm.trans a4, b5.symm.trans a5⟩

theorem decodes_tdc (w tdc : U64) (chip : Int) : Decodes w chip (hitTdc w tdc chip) := by
  obtain ⟨-, ⟨b1, b2, b3, b4, b5⟩, d⟩ := c49_ctor w 0 0 tdc 0 chip
  unfold Decodes at d ⊢
  rw [← b1, ← b2, ← b3, ← b4, ← b5]
  exact d

/-- A trigger that does not read zero leaves no trigger time at zero, whatever the time reference. -/
theorem trigger_known (w : U64) (h : ¬ ZeroTrigger w) (t t' : Times) (hz : t.tdc = 0 ↔ t'.tdc = 0) :
    (nextG w t).tdc = 0 ↔ (nextT w t').tdc = 0 := by
  unfold ZeroTrigger at h
  unfold nextG nextT
  by_cases hw : IsTriggerPacket w
  · rw [if_pos hw, if_pos hw]
    have h0 : field w 12 32 ≠ 0 := fun h0 => h ⟨hw, h0⟩
    have hlt : field w 12 32 < 2 ^ 32 := Nat.mod_lt _ (by norm_num)
    simp only [triggerTime, rollTime]
    generalize field w 12 32 = m at *
    constructor
    · intro h
      omega
    · intro h
      split at h <;> omega
  · rw [if_neg hw, if_neg hw]
    split
    · split
      · exact hz
      · split
        · exact hz
        · exact hz
    · exact hz

theorem clock_stays (w : U64) (t : Times) (h : t.gdc ≠ 0) : (nextG w t).gdc ≠ 0 := by
  unfold nextG
  split
  · exact h
  · split
    · split
      · exact h
      · split
        · rename_i h'
          exact h'.2
        · exact h
    · exact h

/-- Once the global time is known both references give the same pixels. -/
theorem same_pixels (ps : List (Int × U64)) (hn : ∀ p ∈ ps, ¬ ZeroTrigger p.2) (t t' : Times) (hz : t.tdc = 0 ↔ t'.tdc = 0)
    (hg : t.gdc ≠ 0) : List.Forall₂ SamePixel (passT t' ps) (passG t ps) ∧ unclocked t ps = [] := by
  induction ps generalizing t t' with
  | nil => exact ⟨.nil, rfl⟩
  | cons p ps ih =>
    obtain ⟨i1, i2⟩ := ih (fun q hq => hn q (by simp [hq])) (nextG p.2 t) (nextT p.2 t')
      (trigger_known p.2 (hn p (by simp)) t t' hz) (clock_stays p.2 t hg)
    rw [passT, passG, unclocked, i2, if_neg (fun h : IsHitPacket p.2 ∧ t.tdc ≠ 0 ∧ t.gdc = 0 => hg h.2.2)]
    refine ⟨?_, rfl⟩
    by_cases hh : IsHitPacket p.2 ∧ t'.tdc ≠ 0
    · rw [if_pos hh, if_pos ⟨hh.1, fun h => hh.2 (hz.mp h), hg⟩]
      exact .cons (samePixel_modes ..) i1
    · rw [if_neg hh, if_neg (fun h => hh ⟨h.1, fun h' => h.2.1 (hz.mpr h')⟩)]
      exact i1

/-- C129 for a stream of packets: with the triggers alone there are first the hits that come after a trigger but before the global time
is known, and then, pixel for pixel and in the same order, the hits there are with the global clock. -/
theorem c129_packets (ps : List (Int × U64)) (hn : ∀ p ∈ ps, ¬ ZeroTrigger p.2) (t t' : Times) (hz : t.tdc = 0 ↔ t'.tdc = 0) :
    ∃ early late, passT t' ps = early ++ late ∧ List.Forall₂ SamePixel late (passG t ps) ∧
      List.Forall₂ (fun h p => Decodes p.2 p.1 h) early (unclocked t ps) := by
  induction ps generalizing t t' with
  | nil => exact ⟨[], [], rfl, .nil, .nil⟩
  | cons p ps ih =>
    by_cases hg : t.gdc = 0
    · obtain ⟨early, late, e, l, d⟩ := ih (fun q hq => hn q (by simp [hq])) (nextG p.2 t) (nextT p.2 t')
        (trigger_known p.2 (hn p (by simp)) t t' hz)
      rw [passT, passG, unclocked, e, if_neg (fun h : _ ∧ _ ∧ t.gdc ≠ 0 => h.2.2 hg)]
      by_cases hh : IsHitPacket p.2 ∧ t'.tdc ≠ 0
      · rw [if_pos hh, if_pos ⟨hh.1, fun h => hh.2 (hz.mp h), hg⟩]
        exact ⟨_ :: early, late, rfl, l, .cons (decodes_tdc ..) d⟩
      · rw [if_neg hh, if_neg (fun h => hh ⟨h.1, fun h' => h.2.1 (hz.mpr h')⟩)]
        exact ⟨early, late, rfl, l, d⟩
    · obtain ⟨h1, h2⟩ := same_pixels (p :: ps) hn t t' hz hg
      exact ⟨[], _, rfl, h1, by rw [h2]; exact .nil⟩

/-- Before the first trigger nothing is unclocked, and nothing after the global time is known. -/
theorem unclocked_append (pre post : List (Int × U64)) (t : Times) (h0 : t.tdc = 0) (hn : ∀ p ∈ pre, ¬ IsTriggerPacket p.2) :
    unclocked t (pre ++ post) = unclocked (timesG t (pre.map Prod.snd)) post ∧ (timesG t (pre.map Prod.snd)).tdc = 0 := by
  induction pre generalizing t with
  | nil => exact ⟨rfl, h0⟩
  | cons p pre ih =>
    have hp := hn p (by simp)
    have h1 : (nextG p.2 t).tdc = 0 := by
      unfold nextG
      rw [if_neg hp]
      split
      · split
        · exact h0
        · split <;> exact h0
      · exact h0
    rw [List.cons_append, unclocked, if_neg (fun h => h.2.1 h0), List.nil_append, List.map_cons, timesG_cons]
    exact ih _ h1 fun q hq => hn q (by simp [hq])

/-- C129: if the global time is known before the first trigger, both references give the same hits, pixel for pixel. -/
theorem c129_clock_first (pre post : List (Int × U64)) (hn : ∀ p ∈ pre, ¬ IsTriggerPacket p.2) (hz : ∀ p ∈ post, ¬ ZeroTrigger p.2)
    (hg : (timesG ⟨0, 0, 0⟩ (pre.map Prod.snd)).gdc ≠ 0) :
    List.Forall₂ SamePixel (passT ⟨0, 0, 0⟩ (pre ++ post)) (passG ⟨0, 0, 0⟩ (pre ++ post)) := by
  obtain ⟨e, h0⟩ := unclocked_append pre post ⟨0, 0, 0⟩ rfl hn
  have hall : ∀ p ∈ pre ++ post, ¬ ZeroTrigger p.2 := by
    intro p hp
    rcases List.mem_append.mp hp with h | h
    · exact fun hz' => hn p h hz'.1
    · exact hz p h
  obtain ⟨early, late, e1, l, d⟩ := c129_packets (pre ++ post) hall ⟨0, 0, 0⟩ ⟨0, 0, 0⟩ Iff.rfl
  rw [e, (same_pixels post hz (timesG ⟨0, 0, 0⟩ (pre.map Prod.snd)) (timesG ⟨0, 0, 0⟩ (pre.map Prod.snd)) Iff.rfl hg).2] at d
  cases d
  rw [e1]
  exact l

/-- The two halves of the clock, then a trigger and a hit. -/
example : (∀ p ∈ [((0 : Int), 0x4400000003E80000#64), (0, 0x4500000000000000#64)], ¬ IsTriggerPacket p.2) ∧
    (∀ p ∈ [((0 : Int), 0x6F00000000405000#64), (0, 0xB123400000A00009#64)], ¬ ZeroTrigger p.2) ∧
    (timesG ⟨0, 0, 0⟩ ([((0 : Int), 0x4400000003E80000#64), (0, 0x4500000000000000#64)].map Prod.snd)).gdc ≠ 0 ∧
    (passG ⟨0, 0, 0⟩ ([((0 : Int), 0x4400000003E80000#64), (0, 0x4500000000000000#64)] ++
      [(0, 0x6F00000000405000#64), (0, 0xB123400000A00009#64)])).length = 1 := by
  decide +kernel

theorem tagged_pieces (n : Nat) (file : Bytes) : tagged (fileChunks n file) = piecePackets n file := rfl

/-- The hits of a run, in one pass over the packets of its file. -/
theorem run_pass (x : CliCtx) (n : Nat) (hn0 : 0 < n) (file : Bytes) (fuel : Nat) (bs : List EventBatch) (c : Clock)
    (h : cliRun x n fuel file = .ok (some (bs, c))) : hitsOf bs = onePass x.mode ⟨0, 0, 0⟩ (piecePackets n file) := by
  obtain ⟨-, e, -⟩ := c94_hits x n hn0 file fuel bs c h
  rw [hitsOf, List.flatMap_def, e, ← zero_hits, perChunk_pass _ _ (by decide)]
  rfl

/-- C129 for the reading of a whole file, whatever its bytes: if no trigger reads zero and the file is read with each of the time
references, the hits with the triggers alone are first those that come after a trigger but before the global time is known and then,
pixel for pixel, the hits with the global clock. -/
theorem c129_read (pa pa' : AbsParams) (solve solve' : List GaussRow → F64 × F64) (n : Nat) (hn0 : 0 < n) (file : Bytes)
    (fuel fuel' : Nat) (bs bs' : List EventBatch) (c c' : Clock) (h : cliRun ⟨.gdc, pa, solve⟩ n fuel file = .ok (some (bs, c)))
    (h' : cliRun ⟨.tdc, pa', solve'⟩ n fuel' file = .ok (some (bs', c'))) (hz : ∀ p ∈ piecePackets n file, ¬ ZeroTrigger p.2) :
    ∃ early late, hitsOf bs' = early ++ late ∧ List.Forall₂ SamePixel late (hitsOf bs) ∧
      List.Forall₂ (fun h p => Decodes p.2 p.1 h) early (unclocked ⟨0, 0, 0⟩ (piecePackets n file)) := by
  rw [run_pass _ n hn0 file _ _ _ h, run_pass _ n hn0 file _ _ _ h']
  exact c129_packets _ hz _ _ Iff.rfl

theorem samePixel_columns {late hs : List Hit} (h : List.Forall₂ SamePixel late hs) :
    ∀ v ∈ hitAttrs.take 5, (late.map fun x => F64.fin (v.2 x)) = hs.map fun x => F64.fin (v.2 x) := by
  intro v hv
  induction h with
  | nil => rfl
  | cons a _ ih =>
    obtain ⟨a1, a2, a3, a4, a5⟩ := a
    rw [List.map_cons, List.map_cons, ih]
    congr 2
    simp only [hitAttrs, List.take_succ_cons, List.take_zero, List.mem_cons, List.not_mem_nil, or_false] at hv
    rcases hv with rfl | rfl | rfl | rfl | rfl <;> simp only [a1, a2, a3, a4, a5]

/-- C129 for the files of hits: of two runs of the program on one file that end normally, one with the global clock and one with the
triggers alone, the columns x, y, time over threshold, time of arrival and fine time of arrival of the first are the ends of those of
the second, and what comes before are the hits after a trigger and before the first global time. -/
theorem c129_files (o o' : ProgramOptions) (s s' : Settings) (solve solve' : List GaussRow → F64 × F64) (fuel fuel' : Nat)
    (file : Bytes) (w w' : Outputs) (h : mainCore o s solve (fun _ => {}) fuel file = .ok (.finished w))
    (h' : mainCore o' s' solve' (fun _ => {}) fuel' file = .ok (.finished w')) (hm : o.mode = .gdc) (hm' : o'.mode = .tdc)
    (hn : o.chunkSize = o'.chunkSize) (hn0 : 0 < o.chunkSize) (ho : o.outHits ≠ []) (ho' : o'.outHits ≠ [])
    (hz : ∀ p ∈ piecePackets o.chunkSize file, ¬ ZeroTrigger p.2)
    (hsp : ∀ x ∈ passG ⟨0, 0, 0⟩ (piecePackets o.chunkSize file), x.spidertime.toNat < 2 ^ 48)
    (hne : passG ⟨0, 0, 0⟩ (piecePackets o.chunkSize file) ≠ []) :
    ∃ early, List.Forall₂ (fun h p => Decodes p.2 p.1 h) early (unclocked ⟨0, 0, 0⟩ (piecePackets o.chunkSize file)) ∧
      ∀ v ∈ hitAttrs.take 5, ∃ col, column w.hits "hits".toList v.1 = some col ∧
        column w'.hits "hits".toList v.1 = some ((early.map fun x => F64.fin (v.2 x)) ++ col) := by
  obtain ⟨bs, c, hr, k, -⟩ := c74_agree_partial o s solve fuel file w h
  obtain ⟨bs', c', hr', k', -⟩ := c74_agree_partial o' s' solve' fuel' file w' h'
  rw [hm] at hr
  rw [hm', ← hn] at hr'
  obtain ⟨early, late, e, l, d⟩ := c129_read _ _ _ _ _ hn0 file _ _ _ _ _ _ hr hr' hz
  have hp : hitsOf bs = passG ⟨0, 0, 0⟩ (piecePackets o.chunkSize file) := run_pass _ _ hn0 file _ _ _ hr
  have k2 := (k ho).2.2 (fun _ => by rw [hp]; exact hsp) (by rw [hp]; exact hne)
  have hlate : late ≠ [] := by
    rintro rfl
    rw [hp] at l
    cases hq : passG ⟨0, 0, 0⟩ (piecePackets o.chunkSize file) with
    | nil => exact hne hq
    | cons a b => rw [hq] at l; cases l
  have k2' := (k' ho').2.2 (fun hg => by rw [hm'] at hg; cases hg) (by rw [e]; simp [hlate])
  refine ⟨early, d, fun v hv => ⟨_, k2 v (List.mem_of_mem_take hv), ?_⟩⟩
  rw [k2' v (List.mem_of_mem_take hv), e, List.map_append, samePixel_columns l v hv]

/-- C129, the numbers: with the triggers alone there are as many hits more as there are unclocked hit packets. -/
theorem c129_totals (o o' : ProgramOptions) (s s' : Settings) (solve solve' : List GaussRow → F64 × F64) (fuel fuel' : Nat)
    (file : Bytes) (w w' : Outputs) (h : mainCore o s solve (fun _ => {}) fuel file = .ok (.finished w))
    (h' : mainCore o' s' solve' (fun _ => {}) fuel' file = .ok (.finished w')) (hm : o.mode = .gdc) (hm' : o'.mode = .tdc)
    (hn : o.chunkSize = o'.chunkSize) (hn0 : 0 < o.chunkSize) (hz : ∀ p ∈ piecePackets o.chunkSize file, ¬ ZeroTrigger p.2) :
    w'.totalHits = w.totalHits + BitVec.ofNat 64 (unclocked ⟨0, 0, 0⟩ (piecePackets o.chunkSize file)).length := by
  obtain ⟨bs, c, hr, -, -, -, k, -⟩ := c74_agree_partial o s solve fuel file w h
  obtain ⟨bs', c', hr', -, -, -, k', -⟩ := c74_agree_partial o' s' solve' fuel' file w' h'
  rw [hm] at hr
  rw [hm', ← hn] at hr'
  obtain ⟨early, late, e, l, d⟩ := c129_read _ _ _ _ _ hn0 file _ _ _ _ _ _ hr hr' hz
  rw [e, List.length_append, l.length_eq, d.length_eq] at k'
  apply BitVec.eq_of_toNat_eq
  rw [BitVec.toNat_add, BitVec.toNat_ofNat, k, k']
  omega

/-- Trigger at 5, a hit, the clock 1000, and a hit. -/
def lateClock : Bytes := streamBytes [⟨0x0028000033585054#64,
  [0x6F00000000005000#64, 0xB123400000A00009#64, 0x4400000003E80000#64, 0x4500000000000000#64, 0xB123500000B00009#64]⟩]

/-- The assumptions are met by a file with a hit before and a hit after the first global time. -/
example : (∃ w, mainCore hitsAndEventsGdc plainSettings (fun _ => (.nan, .nan)) (fun _ => {}) 2 lateClock = .ok (.finished w) ∧
      w.totalHits = 1#64 ∧ columnRows w.hits "hits".toList ['x'] = 1) ∧
    (∃ w, mainCore hitsAndEvents plainSettings (fun _ => (.nan, .nan)) (fun _ => {}) 2 lateClock = .ok (.finished w) ∧
      w.totalHits = 2#64 ∧ columnRows w.hits "hits".toList ['x'] = 2) ∧
    hitsAndEventsGdc.mode = .gdc ∧ hitsAndEvents.mode = .tdc ∧ hitsAndEventsGdc.chunkSize = hitsAndEvents.chunkSize ∧
    0 < hitsAndEventsGdc.chunkSize ∧
    (∀ p ∈ piecePackets hitsAndEventsGdc.chunkSize lateClock, ¬ ZeroTrigger p.2) ∧
    (∀ x ∈ passG ⟨0, 0, 0⟩ (piecePackets hitsAndEventsGdc.chunkSize lateClock), x.spidertime.toNat < 2 ^ 48) ∧
    passG ⟨0, 0, 0⟩ (piecePackets hitsAndEventsGdc.chunkSize lateClock) ≠ [] ∧
    (unclocked ⟨0, 0, 0⟩ (piecePackets hitsAndEventsGdc.chunkSize lateClock)).length = 1 :=
  ⟨finished_of (P := fun w => w.totalHits = 1#64 ∧ columnRows w.hits "hits".toList ['x'] = 1) _ (by decide +kernel),
    finished_of (P := fun w => w.totalHits = 2#64 ∧ columnRows w.hits "hits".toList ['x'] = 2) _ (by decide +kernel),
    by decide +kernel, by decide +kernel, by decide +kernel, by decide +kernel, by decide +kernel, by decide +kernel, by decide +kernel,
    by decide +kernel⟩

/-- The clock 1000, a trigger that reads zero (at 2^32), and a hit. -/
def zeroTrigger : Bytes := streamBytes [⟨0x0020000033585054#64,
  [0x4400000003E80000#64, 0x4500000000010000#64, 0x6F00000000000000#64, 0xB123400000A00009#64]⟩]

/-- C129 is false if a trigger reads zero: the hit is there with the global clock and not with the triggers alone. -/
theorem c129_false_zero :
    (∃ w, mainCore hitsAndEventsGdc plainSettings (fun _ => (.nan, .nan)) (fun _ => {}) 2 zeroTrigger = .ok (.finished w) ∧
      w.totalHits = 1#64) ∧
    ∃ w, mainCore hitsAndEvents plainSettings (fun _ => (.nan, .nan)) (fun _ => {}) 2 zeroTrigger = .ok (.finished w) ∧
      w.totalHits = 0#64 :=
  ⟨finished_of (P := fun w => w.totalHits = 1#64) _ (by decide +kernel), finished_of (P := fun w => w.totalHits = 0#64) _ (by decide +kernel)⟩

/-- A trigger at 1, the clock 2^30 - 100, and hits of one pixel with 30-bit clocks 2^30 - 1 and 1. -/
def acrossRound : Bytes := streamBytes [⟨0x0028000033585054#64,
  [0x6F00000000001000#64, 0x44003FFFFF9C0000#64, 0x4500000000000000#64, 0xB1234FFFC0A0FFFF#64, 0xB123400040A00000#64]⟩]

/-- C129 is false for times: both references give the same two hits of a pixel, 2 ticks apart with the global clock and 26.8 s apart with
the triggers alone.  The clustering looks at this distance, so the neutrons may differ too. -/
theorem c129_false_times :
    (passG ⟨0, 0, 0⟩ (piecePackets 100 acrossRound)).map (fun h => (h.x, h.y, h.spidertime)) =
      [(279, 24, 1073741823#64), (279, 24, 1073741825#64)] ∧
    (passT ⟨0, 0, 0⟩ (piecePackets 100 acrossRound)).map (fun h => (h.x, h.y, h.spidertime)) =
      [(279, 24, 1073741823#64), (279, 24, 1#64)] := by
  decide +kernel

end Verif.Props
