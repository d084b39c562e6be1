import Verif.Lemmas.Tpx3

/-!
# Properties of packet processing (C14-C17, C19, C20)
-/

namespace Verif.Props

open Verif Verif.Spec

/-! ## C14: no reads outside the buffer -/

/-- C14, exact: for a batch found by the header scan, processing reads outside the buffer precisely if the buffer
ends with an incomplete packet and the batch announces more packets than there are complete ones. -/
theorem c14_oob_iff (m : Mode) (buf : Bytes) (bs : List Batch) (b : Batch) (c : Clock)
    (hfind : findTPX3H buf = .ok bs) (hb : b ∈ bs) :
    (extractHits m buf b = .ub .oobRead ↔
      buf.length % 8 ≠ 0 ∧ buf.length / 8 * 8 < b.index + 8 + 8 * b.numPackets) ∧
    (updateTimestamp m buf b c = .ub .oobRead ↔
      buf.length % 8 ≠ 0 ∧ buf.length / 8 * 8 < b.index + 8 + 8 * b.numPackets) := by
  rw [findTPX3H_eq] at hfind
  have hbs : scan (wordsOf buf) 0 = bs := by injection hfind
  subst hbs
  obtain ⟨k, hk, _, rfl⟩ := (mem_scan _ _ _).mp hb
  rw [wordsOf_length] at hk
  generalize hb' : Batch.new (0 + 8 * k) (headerPackets (wordsOf buf)[k]) (headerChip (wordsOf buf)[k]) = b
  have hidx : b.index = 8 * k := by rw [← hb']; exact Nat.zero_add _
  have hiff : reachesPartial buf b.index b.numPackets ↔
      buf.length % 8 ≠ 0 ∧ buf.length / 8 * 8 < b.index + 8 + 8 * b.numPackets := by
    unfold reachesPartial
    omega
  rw [extractHits_eq, updateTimestamp_eq, ← hiff]
  split_ifs with h <;> simp [h]

/-- C14 for buffers of a whole number of packets: always defined, whatever the announced size.  Missing: buffers
whose length is not a multiple of 8. -/
theorem c14_inbounds_partial (m : Mode) (buf : Bytes) (b : Batch) (c : Clock) (hlen : buf.length % 8 = 0)
    (hb : b.index % 8 = 0) :
    (∃ b', extractHits m buf b = .ok b') ∧ (∃ r, updateTimestamp m buf b c = .ok r) := by
  rw [extractHits_eq, updateTimestamp_eq, if_neg (by unfold reachesPartial; omega),
    if_neg (by unfold reachesPartial; omega)]
  exact ⟨⟨_, rfl⟩, ⟨_, rfl⟩⟩

/-- A header that announces 16 packets, and one packet in the buffer. -/
example : ∃ bs, findTPX3H (bytesOf 0x0080000000585054#64 ++ bytesOf 0xB000000000000000#64) = .ok bs ∧
    bs.map Batch.numPackets = [16] := ⟨_, rfl, by decide⟩

/-- C14 is false as stated: a file cut in the middle of a packet. -/
theorem c14_false : ∃ buf : Bytes, ∃ b, findTPX3H buf = .ok [b] ∧
    extractHits .gdc buf b = .ub .oobRead ∧ updateTimestamp .tdc buf b Clock.zero = .ub .oobRead := by
  refine ⟨bytesOf 0x0008000000585054#64 ++ [0], Batch.new 0 1 0, by decide, by decide, by decide⟩

/-! ## C16: every hit packet becomes one hit, in order -/

/-- C16, global-clock mode: extraction appends to the batch's hits exactly one hit for each hit packet that lies
completely in the buffer and has valid times in force, in order, decoded with these times. -/
theorem c16_hits_gdc (buf : Bytes) (b b' : Batch) (hc : b.clock.timer.toNat < 2 ^ 32)
    (h : extractHits .gdc buf b = .ok b') :
    b'.hits = b.hits ++ hitsG b.chip b.clock.times (batchPackets buf b.index b.numPackets) ∧
    b'.index = b.index ∧ b'.numPackets = b.numPackets ∧ b'.chip = b.chip := by
  rw [extractHits_eq] at h
  split_ifs at h
  injection h with h
  subst h
  rw [(runGdc_spec _ _ _ hc).2.2]
  exact ⟨rfl, rfl, rfl, rfl⟩

/-- C16, trigger-only mode. -/
theorem c16_hits_tdc (buf : Bytes) (b b' : Batch) (h : extractHits .tdc buf b = .ok b') :
    b'.hits = b.hits ++ hitsT b.chip b.clock.times (batchPackets buf b.index b.numPackets) ∧
    b'.index = b.index ∧ b'.numPackets = b.numPackets ∧ b'.chip = b.chip := by
  rw [extractHits_eq] at h
  split_ifs at h
  injection h with h
  subst h
  rw [(runTdc_spec _ _ _).2]
  exact ⟨rfl, rfl, rfl, rfl⟩

theorem hitsG_length (chip : Int) (ws : List U64) (t : Times) (ht : t.tdc ≠ 0) (hg : t.gdc ≠ 0)
    (h0 : ∀ i, i < ws.length → (timesG t (ws.take i)).tdc ≠ 0) :
    (hitsG chip t ws).length = (ws.filter (fun w => IsHitPacket w)).length := by
  induction ws generalizing t with
  | nil => rfl
  | cons w ws ih =>
    rw [hitsG_cons, List.length_append]
    cases ws with
    | nil =>
      have e : hitsG chip (nextG w t) [] = [] := rfl
      rw [e]
      by_cases hw : IsHitPacket w <;> simp [hw, ht, hg]
    | cons v vs =>
      have ht' : (nextG w t).tdc ≠ 0 := by
        have := h0 1 (by simp)
        simpa [timesG] using this
      have hg' : (nextG w t).gdc ≠ 0 := by
        unfold nextG
        split_ifs with a1 a2 a3 a4
        · exact hg
        · exact hg
        · exact a4.2
        · exact hg
        · exact hg
      rw [ih (nextG w t) ht' hg' (fun i hi => by
        have := h0 (i + 1) (by simpa using hi)
        simpa [timesG] using this)]
      by_cases hw : IsHitPacket w
      · rw [List.filter_cons_of_pos (a := w) (by simpa using hw)]
        simp only [hw, ht, hg, ne_eq, not_false_eq_true, and_self, if_true, List.length_cons, List.length_nil]; omega
      · rw [List.filter_cons_of_neg (a := w) (by simpa using hw)]
        simp only [hw, false_and, if_false, List.length_nil]; omega

/-- C16, count: with valid start times and no trigger at time zero in between, the number of new hits is the number
of hit packets. -/
theorem c16_count_gdc (buf : Bytes) (b b' : Batch) (hc : b.clock.timer.toNat < 2 ^ 32)
    (h : extractHits .gdc buf b = .ok b') (ht : b.clock.tdc ≠ 0) (hg : b.clock.gdc ≠ 0)
    (h0 : ∀ i, i < (batchPackets buf b.index b.numPackets).length →
      (timesG b.clock.times ((batchPackets buf b.index b.numPackets).take i)).tdc ≠ 0) :
    b'.hits.length =
      b.hits.length + ((batchPackets buf b.index b.numPackets).filter (fun w => IsHitPacket w)).length := by
  rw [(c16_hits_gdc buf b b' hc h).1, List.length_append, hitsG_length _ _ _ _ _ h0]
  · exact fun hz => ht (BitVec.eq_of_toNat_eq hz)
  · exact fun hz => hg (BitVec.eq_of_toNat_eq hz)

theorem hitsT_length (chip : Int) (ws : List U64) (t : Times) (ht : t.tdc ≠ 0)
    (h0 : ∀ i, i < ws.length → (timesT t (ws.take i)).tdc ≠ 0) :
    (hitsT chip t ws).length = (ws.filter (fun w => IsHitPacket w)).length := by
  induction ws generalizing t with
  | nil => rfl
  | cons w ws ih =>
    rw [hitsT_cons, List.length_append]
    cases ws with
    | nil =>
      have e : hitsT chip (nextT w t) [] = [] := rfl
      rw [e]
      by_cases hw : IsHitPacket w <;> simp [hw, ht]
    | cons v vs =>
      have ht' : (nextT w t).tdc ≠ 0 := by
        have := h0 1 (by simp)
        simpa [timesT] using this
      rw [ih (nextT w t) ht' (fun i hi => by
        have := h0 (i + 1) (by simpa using hi)
        simpa [timesT] using this)]
      by_cases hw : IsHitPacket w
      · rw [List.filter_cons_of_pos (a := w) (by simpa using hw)]
        simp only [hw, ht, ne_eq, not_false_eq_true, and_self, if_true, List.length_cons, List.length_nil]; omega
      · rw [List.filter_cons_of_neg (a := w) (by simpa using hw)]
        simp only [hw, false_and, if_false, List.length_nil]; omega

theorem c16_count_tdc (buf : Bytes) (b b' : Batch) (h : extractHits .tdc buf b = .ok b') (ht : b.clock.tdc ≠ 0)
    (h0 : ∀ i, i < (batchPackets buf b.index b.numPackets).length →
      (timesT b.clock.times ((batchPackets buf b.index b.numPackets).take i)).tdc ≠ 0) :
    b'.hits.length =
      b.hits.length + ((batchPackets buf b.index b.numPackets).filter (fun w => IsHitPacket w)).length := by
  rw [(c16_hits_tdc buf b b' h).1, List.length_append, hitsT_length _ _ _ _ h0]
  exact fun hz => ht (BitVec.eq_of_toNat_eq hz)

/-- A batch with a hit, a trigger and another hit. -/
example : ∃ b', extractHits .tdc
      ([0x0018000000585054#64, 0xB000000000000009#64, 0x6F00000000005000#64, 0xB123400000000009#64].flatMap bytesOf)
      { Batch.new 0 3 0 with clock := ⟨7, 0, 0⟩ } = .ok b' ∧ b'.hits.length = 2 := ⟨_, rfl, by decide⟩

/-! ## C17: two-phase extraction equals one pass -/

theorem passG_append (t : Times) (chip : Int) (ws : List U64) (ps : List (Int × U64)) :
    passG t (ws.map (chip, ·) ++ ps) = hitsG chip t ws ++ passG (timesG t ws) ps := by
  induction ws generalizing t with
  | nil => rfl
  | cons w ws ih =>
    rw [List.map_cons, List.cons_append, passG, hitsG_cons, timesG_cons, ih, List.append_assoc]

theorem passT_append (t : Times) (chip : Int) (ws : List U64) (ps : List (Int × U64)) :
    passT t (ws.map (chip, ·) ++ ps) = hitsT chip t ws ++ passT (timesT t ws) ps := by
  induction ws generalizing t with
  | nil => rfl
  | cons w ws ih =>
    rw [List.map_cons, List.cons_append, passT, hitsT_cons, timesT_cons, ih, List.append_assoc]

/-- All packets of the batches, in order, each with the chip of its batch. -/
def taggedPackets (buf : Bytes) (bs : List Batch) : List (Int × U64) :=
  bs.flatMap fun b => (batchPackets buf b.index b.numPackets).map (b.chip, ·)

theorem hitsT_congr (chip : Int) (ws : List U64) (t t' : Times) (h : t.tdc = t'.tdc) :
    hitsT chip t ws = hitsT chip t' ws ∧ (timesT t ws).tdc = (timesT t' ws).tdc := by
  induction ws generalizing t t' with
  | nil => exact ⟨rfl, h⟩
  | cons w ws ih =>
    have hn : (nextT w t).tdc = (nextT w t').tdc := by
      unfold nextT; split_ifs <;> simp [h]
    obtain ⟨i1, i2⟩ := ih _ _ hn
    rw [hitsT_cons, hitsT_cons, timesT_cons, timesT_cons, i1, i2, h]
    exact ⟨rfl, rfl⟩

theorem passT_congr (ps : List (Int × U64)) (t t' : Times) (h : t.tdc = t'.tdc) : passT t ps = passT t' ps := by
  induction ps generalizing t t' with
  | nil => rfl
  | cons p ps ih =>
    have hn : (nextT p.2 t).tdc = (nextT p.2 t').tdc := by
      unfold nextT; split_ifs <;> simp [h]
    rw [passT, passT, ih _ _ hn, h]

/-- C17, global-clock mode: locating the start timestamps of all batches first and then extracting each batch on
its own gives exactly the hits of one sequential pass over all packets of all batches. -/
theorem c17_two_phase_gdc (buf : Bytes) (bs bs1 bs2 : List Batch) (c c1 : Clock)
    (hc : c.timer.toNat < 2 ^ 32) (hempty : ∀ b ∈ bs, b.hits = [])
    (h1 : locate .gdc buf bs c = .ok (bs1, c1)) (h2 : extractAll .gdc buf bs1 = .ok bs2) :
    bs2.flatMap Batch.hits = passG c.times (taggedPackets buf bs) ∧
    c1.times = timesG c.times ((taggedPackets buf bs).map Prod.snd) ∧ c1.timer.toNat < 2 ^ 32 := by
  induction bs generalizing bs1 bs2 c with
  | nil =>
    simp only [locate] at h1
    injection h1 with h1
    injection h1 with h1 h1'
    subst h1 h1'
    simp only [extractAll] at h2
    injection h2 with h2
    subst h2
    exact ⟨rfl, rfl, hc⟩
  | cons b bs ih =>
    simp only [locate, updateTimestamp_eq] at h1
    split_ifs at h1 with hp
    · simp [bind, Res.bind] at h1
    · simp only [bind, Res.bind] at h1
      obtain ⟨g1, g2, g3⟩ := runGdc_spec b.chip (batchPackets buf b.index b.numPackets) c hc
      cases hl : locate .gdc buf bs
          (runPackets .gdc true b.chip (batchPackets buf b.index b.numPackets) c).1 with
      | ok s =>
        rw [hl] at h1
        injection h1 with h1
        injection h1 with h1 h1'
        subst h1 h1'
        simp only [extractAll, extractHits_eq] at h2
        rw [if_neg hp] at h2
        simp only [bind, Res.bind] at h2
        cases hx : extractAll .gdc buf s.1 with
        | ok bs' =>
          rw [hx] at h2
          injection h2 with h2
          subst h2
          obtain ⟨i1, i2, i3⟩ := ih s.1 bs' _ g2 (fun b hb => hempty b (by simp [hb])) hl hx
          have hst : storedClock .gdc b c = c := rfl
          refine ⟨?_, ?_, i3⟩
          · rw [List.flatMap_cons, i1, g1]
            show (b.hits ++ (runPackets .gdc true b.chip _ (storedClock .gdc b c)).2) ++ _ = _
            rw [hempty b (by simp), hst, g3]
            show _ = passG c.times (List.map _ _ ++ taggedPackets buf bs)
            rw [passG_append]
            rfl
          · rw [i2, g1]
            simp only [taggedPackets, List.flatMap_cons, List.map_append, List.map_map]
            unfold timesG
            rw [List.foldl_append]
            congr 1
            congr 1
            simp [Function.comp_def]
        | throws e => rw [hx] at h2; simp at h2
        | ub u => rw [hx] at h2; simp at h2
      | throws e => rw [hl] at h1; simp at h1
      | ub u => rw [hl] at h1; simp at h1

/-- C17, trigger-only mode. -/
theorem c17_two_phase_tdc (buf : Bytes) (bs bs1 bs2 : List Batch) (c c1 : Clock) (hempty : ∀ b ∈ bs, b.hits = [])
    (h1 : locate .tdc buf bs c = .ok (bs1, c1)) (h2 : extractAll .tdc buf bs1 = .ok bs2) :
    bs2.flatMap Batch.hits = passT c.times (taggedPackets buf bs) ∧
    c1.times = timesT c.times ((taggedPackets buf bs).map Prod.snd) := by
  induction bs generalizing bs1 bs2 c with
  | nil =>
    simp only [locate] at h1
    injection h1 with h1
    injection h1 with h1 h1'
    subst h1 h1'
    simp only [extractAll] at h2
    injection h2 with h2
    subst h2
    exact ⟨rfl, rfl⟩
  | cons b bs ih =>
    simp only [locate, updateTimestamp_eq] at h1
    split_ifs at h1 with hp
    · simp [bind, Res.bind] at h1
    · simp only [bind, Res.bind] at h1
      obtain ⟨g1, g3⟩ := runTdc_spec b.chip (batchPackets buf b.index b.numPackets) c
      cases hl : locate .tdc buf bs
          (runPackets .tdc true b.chip (batchPackets buf b.index b.numPackets) c).1 with
      | ok s =>
        rw [hl] at h1
        injection h1 with h1
        injection h1 with h1 h1'
        subst h1 h1'
        simp only [extractAll, extractHits_eq] at h2
        rw [if_neg hp] at h2
        simp only [bind, Res.bind] at h2
        cases hx : extractAll .tdc buf s.1 with
        | ok bs' =>
          rw [hx] at h2
          injection h2 with h2
          subst h2
          obtain ⟨i1, i2⟩ := ih s.1 bs' _ (fun b hb => hempty b (by simp [hb])) hl hx
          have hst : (runPackets .tdc true b.chip (batchPackets buf b.index b.numPackets) (storedClock .tdc b c)).2 =
              (runPackets .tdc true b.chip (batchPackets buf b.index b.numPackets) c).2 := by
            rw [(runTdc_spec _ _ _).2, g3]
            exact (hitsT_congr b.chip _ (storedClock .tdc b c).times c.times rfl).1
          refine ⟨?_, ?_⟩
          · rw [List.flatMap_cons, i1, g1]
            show (b.hits ++ (runPackets .tdc true b.chip _ (storedClock .tdc b c)).2) ++ _ = _
            rw [hempty b (by simp), hst, g3]
            show _ = passT c.times (List.map _ _ ++ taggedPackets buf bs)
            rw [passT_append]
            rfl
          · rw [i2, g1]
            simp only [taggedPackets, List.flatMap_cons, List.map_append, List.map_map]
            unfold timesT
            rw [List.foldl_append]
            congr 1
            congr 1
            simp [Function.comp_def]
        | throws e => rw [hx] at h2; simp at h2
        | ub u => rw [hx] at h2; simp at h2
      | throws e => rw [hl] at h1; simp at h1
      | ub u => rw [hl] at h1; simp at h1

/-- C17 also for definedness: both phases are defined if no batch reaches an incomplete packet, in particular for
all batches of a buffer of whole packets. -/
theorem c17_defined (m : Mode) (buf : Bytes) (bs : List Batch) (c : Clock) (hlen : buf.length % 8 = 0)
    (hb : ∀ b ∈ bs, b.index % 8 = 0) :
    ∃ bs1 c1 bs2, locate m buf bs c = .ok (bs1, c1) ∧ extractAll m buf bs1 = .ok bs2 := by
  induction bs generalizing c with
  | nil => exact ⟨[], c, [], rfl, rfl⟩
  | cons b bs ih =>
    have hp : ¬ reachesPartial buf b.index b.numPackets := by
      have := hb b (by simp)
      unfold reachesPartial; omega
    obtain ⟨bs1, c1, bs2, h1, h2⟩ := ih
      (runPackets m true b.chip (batchPackets buf b.index b.numPackets) c).1 (fun b hb' => hb b (by simp [hb']))
    have e1 : locate m buf (b :: bs) c = .ok ({ b with clock := storedClock m b c } :: bs1, c1) := by
      simp only [locate, updateTimestamp_eq]
      rw [if_neg hp]
      simp only [bind, Res.bind]
      rw [h1]
    have e2 : ∃ bs3, extractAll m buf ({ b with clock := storedClock m b c } :: bs1) = .ok bs3 := by
      simp only [extractAll, extractHits_eq]
      rw [if_neg hp]
      simp only [bind, Res.bind]
      rw [h2]
      exact ⟨_, rfl⟩
    obtain ⟨bs3, e3⟩ := e2
    exact ⟨_, _, bs3, e1, e3⟩

/-! ## C15: no hit before the first trigger -/

theorem passG_no_trigger (ps : List (Int × U64)) (t : Times) (ht : t.tdc = 0)
    (h : ∀ p ∈ ps, ¬ IsTriggerPacket p.2) : passG t ps = [] := by
  induction ps generalizing t with
  | nil => rfl
  | cons p ps ih =>
    have hn : (nextG p.2 t).tdc = 0 := by
      have := h p (by simp)
      unfold nextG
      split_ifs <;> exact ht
    rw [passG, ih _ hn (fun q hq => h q (by simp [hq]))]
    simp [ht]

theorem passG_no_global (ps : List (Int × U64)) (t : Times) (ht : t.gdc = 0)
    (h : ∀ p ∈ ps, ¬ (IsGlobalPacket p.2 ∧ field p.2 56 4 = 5)) : passG t ps = [] := by
  induction ps generalizing t with
  | nil => rfl
  | cons p ps ih =>
    have hn : (nextG p.2 t).gdc = 0 := by
      have := h p (by simp)
      unfold nextG
      split_ifs with a1 a2 a3 a4
      · exact ht
      · exact ht
      · exact absurd ⟨a2, a4.1⟩ this
      · exact ht
      · exact ht
    rw [passG, ih _ hn (fun q hq => h q (by simp [hq]))]
    simp [ht]

theorem passT_no_trigger (ps : List (Int × U64)) (t : Times) (ht : t.tdc = 0)
    (h : ∀ p ∈ ps, ¬ IsTriggerPacket p.2) : passT t ps = [] := by
  induction ps generalizing t with
  | nil => rfl
  | cons p ps ih =>
    have hn : (nextT p.2 t).tdc = 0 := by
      have := h p (by simp)
      unfold nextT
      split_ifs <;> exact ht
    rw [passT, ih _ hn (fun q hq => h q (by simp [hq]))]
    simp [ht]

/-- C15 for a whole buffer: starting from zero timestamps, if the packets of the batches are `pre` followed by
`post` and `pre` has no trigger packet (or, with global clock, no high half of the global time), then `pre`
yields no hit: all hits come from `post`. -/
theorem c15_no_hit_before_trigger (m : Mode) (buf : Bytes) (bs bs2 : List Batch) (c1 : Clock)
    (pre post : List (Int × U64)) (hfind : findTPX3H buf = .ok bs)
    (hsplit : taggedPackets buf bs = pre ++ post)
    (hpre : (∀ p ∈ pre, ¬ IsTriggerPacket p.2) ∨
      (m = .gdc ∧ ∀ p ∈ pre, ¬ (IsGlobalPacket p.2 ∧ field p.2 56 4 = 5)))
    (h : processBuffer m buf Clock.zero = .ok (bs2, c1)) :
    bs2.flatMap Batch.hits =
      match m with
      | .gdc => passG (timesG ⟨0, 0, 0⟩ (pre.map Prod.snd)) post
      | .tdc => passT (timesT ⟨0, 0, 0⟩ (pre.map Prod.snd)) post := by
  have hempty : ∀ b ∈ bs, b.hits = [] := by
    intro b hb
    rw [findTPX3H_eq] at hfind
    injection hfind with hfind
    subst hfind
    obtain ⟨k, _, _, rfl⟩ := (mem_scan _ _ _).mp hb
    rfl
  unfold processBuffer at h
  rw [hfind] at h
  simp only [bind, Res.bind] at h
  cases hl : locate m buf bs Clock.zero with
  | ok s =>
    rw [hl] at h
    simp only at h
    cases hx : extractAll m buf s.1 with
    | ok t =>
      rw [hx] at h
      injection h with h
      injection h with h h'
      subst h
      cases m with
      | gdc =>
        rw [(c17_two_phase_gdc buf bs s.1 t Clock.zero s.2 (by decide) hempty hl hx).1, hsplit]
        have hz : Clock.zero.times = ⟨0, 0, 0⟩ := rfl
        rw [hz]
        have key : ∀ (ps qs : List (Int × U64)) (t : Times),
            passG t (ps ++ qs) = passG t ps ++ passG (timesG t (ps.map Prod.snd)) qs := by
          intro ps
          induction ps with
          | nil => intro qs t; rfl
          | cons p ps ih =>
            intro qs t
            rw [List.cons_append, passG, passG, ih, List.map_cons, timesG_cons, List.append_assoc]
        rw [key]
        rcases hpre with hp | ⟨_, hp⟩
        · rw [passG_no_trigger _ _ rfl hp]; rfl
        · rw [passG_no_global _ _ rfl hp]; rfl
      | tdc =>
        rw [(c17_two_phase_tdc buf bs s.1 t Clock.zero s.2 hempty hl hx).1, hsplit]
        have hz : Clock.zero.times = ⟨0, 0, 0⟩ := rfl
        rw [hz]
        have key : ∀ (ps qs : List (Int × U64)) (t : Times),
            passT t (ps ++ qs) = passT t ps ++ passT (timesT t (ps.map Prod.snd)) qs := by
          intro ps
          induction ps with
          | nil => intro qs t; rfl
          | cons p ps ih =>
            intro qs t
            rw [List.cons_append, passT, passT, ih, List.map_cons, timesT_cons, List.append_assoc]
        rw [key]
        rcases hpre with hp | ⟨hm, _⟩
        · rw [passT_no_trigger _ _ rfl hp]; rfl
        · exact absurd hm (by decide)
    | throws e => rw [hx] at h; simp at h
    | ub u => rw [hx] at h; simp at h
  | throws e => rw [hl] at h; simp at h
  | ub u => rw [hl] at h; simp at h

/-- C15, special case: no trigger packet at all, no hit at all. -/
theorem c15_no_trigger_no_hits (m : Mode) (buf : Bytes) (bs bs2 : List Batch) (c1 : Clock)
    (hfind : findTPX3H buf = .ok bs) (hno : ∀ p ∈ taggedPackets buf bs, ¬ IsTriggerPacket p.2)
    (h : processBuffer m buf Clock.zero = .ok (bs2, c1)) : ∀ b ∈ bs2, b.hits = [] := by
  have := c15_no_hit_before_trigger m buf bs bs2 c1 (taggedPackets buf bs) [] hfind (by simp) (Or.inl hno) h
  have hnil : bs2.flatMap Batch.hits = [] := by rw [this]; cases m <;> rfl
  intro b hb
  exact List.flatMap_eq_nil_iff.mp hnil b hb

/-- A stream with a hit before and a hit after the trigger. -/
example : ∃ bs c, processBuffer .tdc
    ([0x0018000000585054#64, 0xB000000000000009#64, 0x6F00000000005000#64, 0xB123400000000009#64].flatMap bytesOf)
    Clock.zero = .ok (bs, c) ∧ (bs.flatMap Batch.hits).length = 1 := ⟨_, _, rfl, by decide⟩

/-! ## C19: stored timestamps and repeated extraction -/

/-- C19, first half: after extraction the batch's stored timestamps are those with which the next batch starts
(in trigger-only mode the trigger timestamp is). -/
theorem c19_clock_partial (m : Mode) (buf : Bytes) (b b1 b2 : Batch) (c c1 : Clock)
    (h1 : updateTimestamp m buf b c = .ok (b1, c1)) (h2 : extractHits m buf b1 = .ok b2) :
    b2.clock.tdc = c1.tdc ∧ (m = .gdc → b2.clock = c1) := by
  rw [updateTimestamp_eq] at h1
  split_ifs at h1
  injection h1 with h1
  injection h1 with h1 h1'
  subst h1 h1'
  rw [extractHits_eq] at h2
  split_ifs at h2
  injection h2 with h2
  subst h2
  cases m with
  | gdc => exact ⟨rfl, fun _ => rfl⟩
  | tdc =>
    refine ⟨?_, fun h => absurd h (by decide)⟩
    show (runPackets .tdc true b.chip (batchPackets buf b.index b.numPackets) (storedClock .tdc b c)).1.tdc = _
    apply BitVec.eq_of_toNat_eq
    have e1 := (runTdc_spec b.chip (batchPackets buf b.index b.numPackets) (storedClock .tdc b c)).1
    have e2 := (runTdc_spec b.chip (batchPackets buf b.index b.numPackets) c).1
    have e3 := (hitsT_congr b.chip (batchPackets buf b.index b.numPackets) (storedClock .tdc b c).times c.times
      rfl).2
    have f1 := congrArg Times.tdc e1
    have f2 := congrArg Times.tdc e2
    exact f1.trans (e3.trans f2.symm)

/-- C19, second half is false: extracting a batch twice doubles its hits. -/
theorem c19_false : ∃ (buf : Bytes) (b b1 b2 : Batch), extractHits .tdc buf b = .ok b1 ∧
    extractHits .tdc buf b1 = .ok b2 ∧ b1.hits.length = 1 ∧ b2.hits.length = 2 :=
  ⟨[0x0008000000585054#64, 0xB000000000000009#64].flatMap bytesOf, { Batch.new 0 1 0 with clock := ⟨7, 0, 0⟩ },
    _, _, rfl, rfl, by decide, by decide⟩

/-! ## C20: unknown packets are ignored -/

theorem unknown_step (m : Mode) (e : Bool) (chip : Int) (w : U64) (c : Clock) (h : IsUnknownPacket w) :
    step m e chip w c = (c, []) := by
  have h1 : ¬ isTdc w = true := fun x => h.1 ((isTdc_iff w).mp x)
  have h2 : ¬ isGdc w = true := fun x => h.2.1 ((isGdc_iff w).mp x)
  have h3 : ¬ isHit w = true := fun x => h.2.2 ((isHit_iff w).mp x)
  cases m <;> simp [step, stepGdc, stepTdc, h1, h2, h3]

/-- The same packets up to unknown ones. -/
def SameButUnknown (w v : U64) : Prop := w = v ∨ (IsUnknownPacket w ∧ IsUnknownPacket v)

theorem runPackets_unknown (m : Mode) (e : Bool) (chip : Int) (ws vs : List U64) (c : Clock)
    (h : List.Forall₂ SameButUnknown ws vs) : runPackets m e chip ws c = runPackets m e chip vs c := by
  induction h generalizing c with
  | nil => rfl
  | cons hw _ ih =>
    rcases hw with rfl | ⟨h1, h2⟩
    · simp only [runPackets, ih]
    · simp only [runPackets, unknown_step m e chip _ c h1, unknown_step m e chip _ c h2, ih]

/-- C20: two buffers of the same length whose packets agree except for unknown ones give the same timestamps and
the same hits for every batch. -/
theorem c20_unknown_ignored (m : Mode) (buf buf' : Bytes) (b : Batch) (c : Clock)
    (hlen : buf.length = buf'.length)
    (hsame : List.Forall₂ SameButUnknown (batchPackets buf b.index b.numPackets)
      (batchPackets buf' b.index b.numPackets)) :
    extractHits m buf b = extractHits m buf' b ∧ updateTimestamp m buf b c = updateTimestamp m buf' b c := by
  have hp : reachesPartial buf b.index b.numPackets ↔ reachesPartial buf' b.index b.numPackets := by
    unfold reachesPartial; rw [hlen]
  constructor
  · rw [extractHits_eq, extractHits_eq, runPackets_unknown _ _ _ _ _ _ hsame]
    simp only [hp]
  · rw [updateTimestamp_eq, updateTimestamp_eq, runPackets_unknown _ _ _ _ _ _ hsame]
    simp only [hp]

example : SameButUnknown 0x7123456789ABCDEF#64 0x0000000000000000#64 := by
  right; decide

end Verif.Props
