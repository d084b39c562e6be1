import Verif.Lemmas.Scan
import Verif.Props.Packets

/-!
# Properties of the header scan (C11-C13)
-/

namespace Verif.Props

open Verif Verif.Spec

/-! ## C11 -/

/-- C11: the scan is defined for every buffer (no read past its end), the batches come in increasing order of
their offsets, these offsets are exactly the aligned complete words that start with `TPX`, and each batch has the
word's packet count and chip, no hits and zero timestamps. -/
theorem c11_scan (buf : Bytes) : ∃ bs, findTPX3H buf = .ok bs ∧
    (bs.map Batch.index).Pairwise (· < ·) ∧
    (∀ i, i ∈ bs.map Batch.index ↔ 8 ∣ i ∧ i + 8 ≤ buf.length ∧ LooksLikeHeader buf i) ∧
    ∀ b ∈ bs, ∃ b4 b6 b7 : Byte, buf[b.index + 4]? = some b4 ∧ buf[b.index + 6]? = some b6 ∧
      buf[b.index + 7]? = some b7 ∧ b.chip = b4.toInt ∧ b.numPackets = (b7.toNat * 256 + b6.toNat) / 8 ∧
      b.hits = [] ∧ b.clock = ⟨0, 0, 0⟩ := by
  refine ⟨_, findTPX3H_eq buf, ?_, ?_, ?_⟩
  · rw [List.pairwise_map]
    exact scan_sorted _ _
  · intro i
    rw [List.mem_map]
    constructor
    · rintro ⟨b, hb, rfl⟩
      obtain ⟨k, hk, h1, rfl⟩ := (mem_scan _ _ _).mp hb
      have hk' := hk
      rw [wordsOf_length] at hk'
      rw [wordsOf_getElem, isHeader_iff _ _ (by omega)] at h1
      have e : (Batch.new (0 + 8 * k) (headerPackets (wordsOf buf)[k]) (headerChip (wordsOf buf)[k])).index = 8 * k :=
        Nat.zero_add _
      rw [e]
      exact ⟨⟨k, rfl⟩, by omega, h1⟩
    · rintro ⟨⟨k, rfl⟩, h2, h3⟩
      have hk : k < (wordsOf buf).length := by rw [wordsOf_length]; omega
      refine ⟨_, (mem_scan _ _ _).mpr ⟨k, hk, ?_, rfl⟩, Nat.zero_add _⟩
      rw [wordsOf_getElem, isHeader_iff _ _ (by omega)]
      exact h3
  · intro b hb
    obtain ⟨k, hk, _, rfl⟩ := (mem_scan _ _ _).mp hb
    have hk' := hk
    rw [wordsOf_length] at hk'
    have e : (Batch.new (0 + 8 * k) (headerPackets (wordsOf buf)[k]) (headerChip (wordsOf buf)[k])).index = 8 * k :=
      Nat.zero_add _
    have hl : 8 ≤ (buf.drop (8 * k)).length := by rw [List.length_drop]; omega
    rw [e]
    refine ⟨_, _, _, List.getElem?_eq_getElem (by omega), List.getElem?_eq_getElem (by omega),
      List.getElem?_eq_getElem (by omega), ?_, ?_, rfl, rfl⟩
    · show headerChip _ = _
      rw [wordsOf_getElem]
      unfold headerChip
      rw [byteOf_headWord _ 4 (by omega) hl, List.getElem_drop]
    · show headerPackets _ = _
      rw [headerPackets_eq, wordsOf_getElem, byteOf_headWord _ 6 (by omega) hl, byteOf_headWord _ 7 (by omega) hl,
        List.getElem_drop, List.getElem_drop]

/-- A buffer with a data word, a header of chip 2 and one packet, and three extra bytes. -/
example : (findTPX3H ([0xB000000000000000#64, 0x0008000233585054#64, 0xB000000000000001#64].flatMap bytesOf ++
    [0x54#8, 0x50#8, 0x58#8])) = .ok [Batch.new 8 1 2] := by decide

/-! ## C12 -/

theorem sum_zero_iff (l : List Nat) : l.sum = 0 ↔ ∀ x ∈ l, x = 0 := by
  induction l with
  | nil => simp
  | cons a l ih => simp [ih]

theorem scan_table (cs : List Chunk) (off : Nat) (hw : ∀ c ∈ cs, c.WellFormed) (hn : ∀ c ∈ cs, c.NoLookAlike) :
    (scan (streamWords cs) off).map (fun b => (b.index, b.numPackets, b.chip)) = chunkTable off cs := by
  induction cs generalizing off with
  | nil => rfl
  | cons c cs ih =>
    rw [streamWords_cons, scan_chunk _ _ _ (hw c (by simp)), scan_none _ _ (hn c (by simp)), List.nil_append,
      List.map_cons, ih _ (fun d hd => hw d (by simp [hd])) (fun d hd => hn d (by simp [hd]))]
    rfl

theorem chunkTable_length (cs : List Chunk) (off : Nat) : (chunkTable off cs).length = cs.length := by
  induction cs generalizing off with
  | nil => rfl
  | cons c cs ih => simp [chunkTable, ih]

theorem countP_stream (cs : List Chunk) (hw : ∀ c ∈ cs, c.WellFormed) :
    (streamWords cs).countP (fun w => StartsTPX w) =
      cs.length + (cs.map fun c => c.packets.countP (fun w => StartsTPX w)).sum := by
  induction cs with
  | nil => rfl
  | cons c cs ih =>
    have h1 : StartsTPX c.header := (hw c (by simp)).1
    rw [streamWords_cons, List.countP_cons, List.countP_append, ih (fun d hd => hw d (by simp [hd]))]
    simp [h1]
    omega

/-- C12, exact: for a well-formed stream the batches found are the chunks of the stream precisely if no data packet
starts with the bytes `TPX`. -/
theorem c12_headers_iff (cs : List Chunk) (hw : ∀ c ∈ cs, c.WellFormed) :
    (∃ bs, findTPX3H (streamBytes cs) = .ok bs ∧
      bs.map (fun b => (b.index, b.numPackets, b.chip)) = chunkTable 0 cs) ↔ ∀ c ∈ cs, c.NoLookAlike := by
  rw [findTPX3H_eq, wordsOf_streamBytes]
  constructor
  · rintro ⟨bs, h1, h2⟩
    injection h1 with h1
    subst h1
    have hl := congrArg List.length h2
    rw [List.length_map, scan_length, chunkTable_length, countP_stream cs hw] at hl
    intro c hc w hwc hst
    have hz : (cs.map fun c => c.packets.countP (fun w => StartsTPX w)).sum = 0 := by omega
    rw [sum_zero_iff] at hz
    have := hz _ (List.mem_map.mpr ⟨c, hc, rfl⟩)
    rw [List.countP_eq_zero] at this
    exact this w hwc (by simpa using hst)
  · intro hn
    exact ⟨_, rfl, scan_table cs 0 hw hn⟩

/-- C12 as far as it holds.  Missing: streams with a data packet that starts with `TPX`. -/
theorem c12_headers_partial (cs : List Chunk) (hw : ∀ c ∈ cs, c.WellFormed) (hn : ∀ c ∈ cs, c.NoLookAlike) :
    ∃ bs, findTPX3H (streamBytes cs) = .ok bs ∧
      bs.map (fun b => (b.index, b.numPackets, b.chip)) = chunkTable 0 cs :=
  (c12_headers_iff cs hw).mpr hn

example : ∃ cs : List Chunk, cs.length = 2 ∧ (∀ c ∈ cs, c.WellFormed) ∧ (∀ c ∈ cs, c.NoLookAlike) :=
  ⟨[⟨0x0010000033585054#64, [0xB000000000000000#64, 0x6F00000000005000#64]⟩, ⟨0x0008000333585054#64, [0#64]⟩],
    rfl, by decide, by
      intro c hc w hw
      simp only [List.mem_cons, List.not_mem_nil, or_false] at hc
      rcases hc with rfl | rfl <;> simp only [List.mem_cons, List.not_mem_nil, or_false] at hw
      · rcases hw with rfl | rfl <;> decide
      · rcases hw with rfl; decide⟩

/-- C12 is false as stated: an ordinary hit packet (pixel address 0, time of arrival 0, time over threshold 5, fast
time 8, coarse time 0x5054) is taken for a header, and the scan reports a chunk that does not exist. -/
theorem c12_false : ∃ (c : Chunk) (w : U64) (b1 b2 : Batch), c.WellFormed ∧ c.packets = [w] ∧ IsHitPacket w ∧
    findTPX3H (streamBytes [c]) = .ok [b1, b2] ∧ b2.index = 8 ∧ b2.numPackets ≠ 0 :=
  ⟨⟨0x0008000033585054#64, [0xB000000000585054#64]⟩, 0xB000000000585054#64, Batch.new 0 1 0, Batch.new 8 5632 0,
    by decide, rfl, by decide, by decide, rfl, by decide⟩

/-! ## C13 -/

theorem take_words (buf : Bytes) (j : Nat) (h : j ≤ (wordsOf buf).length) : (buf.take (8 * j)).length = 8 * j := by
  rw [wordsOf_length] at h
  rw [List.length_take]; omega

/-- One round: always defined; it advances by a number `j` of words, either all the rest, if the limit is not
reached, or up to the `len`-th header from there. -/
theorem round_ok (m : Mode) (buf : Bytes) (len k : Nat) (c : Clock) (hlen : 1 ≤ len) :
    ∃ bs j c', limitedRound m buf len (8 * k) c = .ok (bs, 8 * (k + j), c') ∧
      ((j = ((wordsOf buf).drop k).length ∧ ((wordsOf buf).drop k).countP (fun w => StartsTPX w) < len) ∨
       ∃ h : j < ((wordsOf buf).drop k).length, StartsTPX (((wordsOf buf).drop k)[j]) ∧
         (((wordsOf buf).drop k).take j).countP (fun w => StartsTPX w) + 1 = len) := by
  have hdef : ∀ (bs : List Batch) (j : Nat), j ≤ (wordsOf (buf.drop (8 * k))).length →
      (∀ b ∈ bs, b.index % 8 = 0) → scanLim len (wordsOf (buf.drop (8 * k))) 0 0 = (bs, 8 * j) →
      ∃ bs' c', limitedRound m buf len (8 * k) c = .ok (bs', 8 * (k + j), c') := by
    intro bs j hj hb hs
    obtain ⟨bs1, c1, bs2, h1, h2⟩ := c17_defined m ((buf.drop (8 * k)).take (8 * j)) bs c
      (by rw [take_words _ _ hj]; omega) hb
    refine ⟨bs2, c1, ?_⟩
    unfold limitedRound
    rw [findTPX3HLim_eq, hs]
    simp only [bind, Res.bind]
    rw [h1]
    simp only
    rw [h2]
    simp only [Nat.mul_add]
  have halign : ∀ (ws : List U64) (b : Batch), b ∈ scan ws 0 → b.index % 8 = 0 := by
    intro ws b hb
    obtain ⟨i, _, _, rfl⟩ := (mem_scan _ _ _).mp hb
    show (0 + 8 * i) % 8 = 0
    omega
  have hd := hdef
  rw [wordsOf_drop] at hdef
  generalize (wordsOf buf).drop k = W at hdef ⊢
  rcases scanLim_cases len W 0 0 (by omega) with ⟨e, hn⟩ | ⟨pre, h, post, hW, hh, hn, e⟩
  · obtain ⟨bs, c', hr⟩ := hdef _ W.length (Nat.le_refl _) (halign W) (by rw [e, Nat.zero_add])
    exact ⟨bs, _, c', hr, Or.inl ⟨rfl, by omega⟩⟩
  · obtain ⟨bs, c', hr⟩ := hdef (scan pre 0 ++ [Batch.new (0 + 8 * pre.length) (headerPackets h) (headerChip h)])
      pre.length (by rw [hW]; simp) (by
      intro b hb
      rcases List.mem_append.mp hb with hb | hb
      · exact halign _ _ hb
      · rw [List.mem_singleton.mp hb]
        show (0 + 8 * pre.length) % 8 = 0
        omega) (by rw [e, Nat.zero_add])
    refine ⟨bs, _, c', hr, Or.inr ⟨by rw [hW]; simp, ?_, ?_⟩⟩
    · simp only [hW, List.getElem_append_right (Nat.le_refl _), Nat.sub_self, List.getElem_cons_zero]
      exact hh
    · rw [hW, List.take_left]; omega

/-- Without a header at the cut, the loop goes on for ever if the buffer does not end at a word boundary. -/
theorem limitedRun_unaligned (m : Mode) (buf : Bytes) (len : Nat) (hlen : 1 ≤ len) (hb : buf.length % 8 ≠ 0)
    (fuel k : Nat) (c : Clock) (hs : List Hit) (hk : k ≤ (wordsOf buf).length) :
    limitedRun m buf len fuel (8 * k) c hs = .ok none := by
  have hlt : 8 * k < buf.length := by rw [wordsOf_length] at hk; omega
  induction fuel generalizing k c hs with
  | zero => rw [limitedRun, if_pos hlt]
  | succ fuel ih =>
    obtain ⟨bs, j, c', hr, hj⟩ := round_ok m buf len k c hlen
    rw [limitedRun, if_pos hlt, hr]
    have hj' : k + j ≤ (wordsOf buf).length := by
      rcases hj with ⟨rfl, _⟩ | ⟨h, _⟩
      · rw [List.length_drop]; omega
      · rw [List.length_drop] at h; omega
    exact ih _ _ _ hj' (by rw [wordsOf_length] at hj'; omega)

theorem limitedRun_stuck (m : Mode) (buf : Bytes) (i : Nat) (hi : i < (wordsOf buf).length)
    (hh : StartsTPX ((wordsOf buf)[i])) (fuel k : Nat) (c : Clock) (hs : List Hit) (hk : k ≤ i) :
    limitedRun m buf 1 fuel (8 * k) c hs = .ok none := by
  have hlt : 8 * k < buf.length := by rw [wordsOf_length] at hi; omega
  induction fuel generalizing k c hs with
  | zero => rw [limitedRun, if_pos hlt]
  | succ fuel ih =>
    obtain ⟨bs, j, c', hr, hj⟩ := round_ok m buf 1 k c (Nat.le_refl _)
    rw [limitedRun, if_pos hlt, hr]
    have hmem : ((wordsOf buf).drop k)[i - k]'(by rw [List.length_drop]; omega) = (wordsOf buf)[i] := by
      rw [List.getElem_drop]; congr 1; omega
    have hj' : k + j ≤ i := by
      rcases hj with ⟨_, hn⟩ | ⟨hjl, _, hn⟩
      · have h0 : ((wordsOf buf).drop k).countP (fun w => StartsTPX w) = 0 := by omega
        rw [List.countP_eq_zero] at h0
        exact absurd (by simpa [hmem] using hh) (h0 _ (List.getElem_mem (by rw [List.length_drop]; omega :
          i - k < ((wordsOf buf).drop k).length)))
      · by_contra hlt'
        have h0 : (((wordsOf buf).drop k).take j).countP (fun w => StartsTPX w) = 0 := by omega
        rw [List.countP_eq_zero] at h0
        have hmem2 : (wordsOf buf)[i] ∈ ((wordsOf buf).drop k).take j := by
          rw [List.mem_take_iff_getElem]
          refine ⟨i - k, ?_, hmem⟩
          rw [List.length_drop]; omega
        exact absurd (by simpa using hh) (h0 _ hmem2)
    exact ih _ _ _ hj' (by rw [wordsOf_length] at hi; omega)

theorem limitedRun_ends (m : Mode) (buf : Bytes) (len : Nat) (hlen : 1 ≤ len) (hb : buf.length % 8 = 0)
    (hok : 2 ≤ len ∨ ∀ w ∈ wordsOf buf, ¬ StartsTPX w) (n k : Nat) (c : Clock) (hs : List Hit)
    (hn : (wordsOf buf).length - k ≤ n) : ∃ r, limitedRun m buf len n (8 * k) c hs = .ok (some r) := by
  induction n generalizing k c hs with
  | zero =>
    refine ⟨(hs, c), ?_⟩
    rw [limitedRun, if_neg]
    rw [wordsOf_length] at hn; omega
  | succ n ih =>
    rw [limitedRun]
    split_ifs with h
    · obtain ⟨bs, j, c', hr, hj⟩ := round_ok m buf len k c hlen
      rw [hr]
      have hkl : k < (wordsOf buf).length := by rw [wordsOf_length]; omega
      have hpos : 1 ≤ j := by
        rcases hj with ⟨rfl, _⟩ | ⟨hjl, hst, hcnt⟩
        · rw [List.length_drop]; omega
        · rcases hok with h2 | h2
          · rcases Nat.eq_zero_or_pos j with rfl | hp
            · simp at hcnt; omega
            · exact hp
          · exact absurd hst (h2 _ (List.mem_of_mem_drop (List.getElem_mem hjl)))
      exact ih _ _ _ (by omega)
    · exact ⟨_, rfl⟩

/-- C13, termination, exact: the loop over a buffer with batch limit `len` ends (and is then defined) precisely if
the buffer consists of whole words and the limit is at least two or there is no header at all. -/
theorem c13_terminates_iff (m : Mode) (buf : Bytes) (len : Nat) (c : Clock) (hlen : 1 ≤ len) :
    (∃ fuel r, limitedRun m buf len fuel 0 c [] = .ok (some r)) ↔
      buf.length % 8 = 0 ∧ (2 ≤ len ∨ ∀ i, 8 ∣ i → i + 8 ≤ buf.length → ¬ LooksLikeHeader buf i) := by
  have hequiv : (∀ w ∈ wordsOf buf, ¬ StartsTPX w) ↔ ∀ i, 8 ∣ i → i + 8 ≤ buf.length → ¬ LooksLikeHeader buf i := by
    constructor
    · rintro h i ⟨k, rfl⟩ hi hl
      have hk : k < (wordsOf buf).length := by rw [wordsOf_length]; omega
      refine h _ (List.getElem_mem hk) ?_
      rw [← isHeader_iff_starts, wordsOf_getElem, isHeader_iff _ _ hi]
      exact hl
    · intro h w hw hst
      obtain ⟨k, hk, rfl⟩ := List.getElem_of_mem hw
      have hk' := hk
      rw [wordsOf_length] at hk'
      refine h (8 * k) ⟨k, rfl⟩ (by omega) ?_
      rw [← isHeader_iff_starts, wordsOf_getElem, isHeader_iff _ _ (by omega)] at hst
      exact hst
  rw [← hequiv]
  constructor
  · rintro ⟨fuel, r, h⟩
    have h8 : buf.length % 8 = 0 := by
      by_contra hb
      rw [show (0 : Nat) = 8 * 0 from rfl, limitedRun_unaligned m buf len hlen hb fuel 0 c [] (Nat.zero_le _)] at h
      simp at h
    refine ⟨h8, ?_⟩
    by_cases h2 : 2 ≤ len
    · exact Or.inl h2
    · right
      intro w hw hst
      obtain ⟨k, hk, rfl⟩ := List.getElem_of_mem hw
      have h1 : len = 1 := by omega
      subst h1
      rw [show (0 : Nat) = 8 * 0 from rfl, limitedRun_stuck m buf k hk hst fuel 0 c [] (Nat.zero_le _)] at h
      simp at h
  · rintro ⟨h8, hok⟩
    exact ⟨_, limitedRun_ends m buf len hlen h8 hok _ 0 c [] (Nat.le_refl _)⟩

/-! ### Same hits -/

/-- The packets of a stream, each with its chip. -/
def streamPackets (cs : List Chunk) : List (Int × U64) :=
  cs.flatMap fun c => c.packets.map (headerChipId c.header, ·)

theorem batchPackets_at (pre ws rest : List U64) (h : U64) :
    batchPackets ((pre ++ h :: (ws ++ rest)).flatMap bytesOf) (8 * pre.length) ws.length = ws := by
  unfold batchPackets
  have e : 8 * pre.length + 8 = 8 * (pre.length + 1) := by omega
  have := drop_flatMap_bytesOf (pre ++ h :: (ws ++ rest)) [] (pre.length + 1) (by simp)
  rw [List.append_nil, List.append_nil] at this
  rw [e, this, wordsOf_flatMap]
  have e2 : (pre ++ h :: (ws ++ rest)).drop (pre.length + 1) = ws ++ rest := by
    rw [show pre ++ h :: (ws ++ rest) = (pre ++ [h]) ++ (ws ++ rest) by simp]
    exact List.drop_left' (by simp)
  rw [e2, List.take_left]

theorem tagged_stream (pre : List U64) (cs : List Chunk) (hw : ∀ c ∈ cs, c.WellFormed)
    (hn : ∀ c ∈ cs, c.NoLookAlike) :
    taggedPackets ((pre ++ streamWords cs).flatMap bytesOf) (scan (streamWords cs) (8 * pre.length)) =
      streamPackets cs := by
  induction cs generalizing pre with
  | nil => rfl
  | cons c cs ih =>
    rw [streamWords_cons, scan_chunk _ _ _ (hw c (by simp)), scan_none _ _ (hn c (by simp)), List.nil_append]
    have e1 : pre ++ c.header :: (c.packets ++ streamWords cs) =
        (pre ++ c.header :: c.packets) ++ streamWords cs := by simp
    have e2 : 8 * pre.length + 8 + 8 * c.packets.length = 8 * (pre ++ c.header :: c.packets).length := by
      simp only [List.length_append, List.length_cons]; omega
    have ih' := ih (pre ++ c.header :: c.packets) (fun d hd => hw d (by simp [hd])) (fun d hd => hn d (by simp [hd]))
    unfold taggedPackets at ih' ⊢
    rw [List.flatMap_cons, e2]
    have e3 : batchPackets ((pre ++ c.header :: (c.packets ++ streamWords cs)).flatMap bytesOf)
        (chunkBatch (8 * pre.length) c).index (chunkBatch (8 * pre.length) c).numPackets = c.packets :=
      batchPackets_at pre c.packets (streamWords cs) c.header
    rw [e3, e1, ih']
    rfl

/-- Sequential pass in the given mode. -/
def passM : Mode → Times → List (Int × U64) → List Hit
  | .gdc => passG
  | .tdc => passT

def timesM : Mode → Times → List U64 → Times
  | .gdc => timesG
  | .tdc => timesT

theorem passM_append (m : Mode) (ps qs : List (Int × U64)) (t : Times) :
    passM m t (ps ++ qs) = passM m t ps ++ passM m (timesM m t (ps.map Prod.snd)) qs := by
  cases m with
  | gdc =>
    show passG t (ps ++ qs) = passG t ps ++ passG (timesG t (ps.map Prod.snd)) qs
    induction ps generalizing t with
    | nil => rfl
    | cons p ps ih => rw [List.cons_append, passG, passG, ih, List.map_cons, timesG_cons, List.append_assoc]
  | tdc =>
    show passT t (ps ++ qs) = passT t ps ++ passT (timesT t (ps.map Prod.snd)) qs
    induction ps generalizing t with
    | nil => rfl
    | cons p ps ih => rw [List.cons_append, passT, passT, ih, List.map_cons, timesT_cons, List.append_assoc]

theorem timesM_append (m : Mode) (ws vs : List U64) (t : Times) :
    timesM m t (ws ++ vs) = timesM m (timesM m t ws) vs := by
  cases m
  · show timesG t (ws ++ vs) = timesG (timesG t ws) vs
    unfold timesG; rw [List.foldl_append]
  · show timesT t (ws ++ vs) = timesT (timesT t ws) vs
    unfold timesT; rw [List.foldl_append]

theorem clock_ext (c d : Clock) (h : c.times = d.times) : c = d := by
  cases c; cases d
  simp only [Clock.times, Times.mk.injEq, BitVec.toNat_inj] at h
  simp [h]

theorem runM_timer (m : Mode) (chip : Int) (ws : List U64) (c : Clock) (hc : c.timer.toNat < 2 ^ 32) :
    (runPackets m true chip ws c).1.timer.toNat < 2 ^ 32 := by
  cases m
  · exact (runGdc_spec chip ws c hc).2.1
  · have h := (runTdc_spec chip ws c).1
    have h2 : ∀ (ws : List U64) (t : Times), (timesT t ws).low = t.low := by
      intro ws
      induction ws with
      | nil => intro t; rfl
      | cons w ws ih =>
        intro t
        rw [timesT_cons, ih]
        unfold nextT
        split_ifs <;> rfl
    have h3 := congrArg Times.low h
    rw [h2] at h3
    have h4 : (runPackets .tdc true chip ws c).1.timer.toNat = c.timer.toNat := h3
    omega

theorem two_phase (m : Mode) (buf : Bytes) (bs bs1 bs2 : List Batch) (c c1 : Clock)
    (hc : c.timer.toNat < 2 ^ 32) (hempty : ∀ b ∈ bs, b.hits = [])
    (h1 : locate m buf bs c = .ok (bs1, c1)) (h2 : extractAll m buf bs1 = .ok bs2) :
    bs2.flatMap Batch.hits = passM m c.times (taggedPackets buf bs) ∧
    c1.times = timesM m c.times ((taggedPackets buf bs).map Prod.snd) ∧ c1.timer.toNat < 2 ^ 32 := by
  cases m
  · exact c17_two_phase_gdc buf bs bs1 bs2 c c1 hc hempty h1 h2
  · obtain ⟨g1, g2⟩ := c17_two_phase_tdc buf bs bs1 bs2 c c1 hempty h1 h2
    refine ⟨g1, g2, ?_⟩
    have h3 := congrArg Times.low g2
    have h4 : ∀ (ws : List U64) (t : Times), (timesT t ws).low = t.low := by
      intro ws
      induction ws with
      | nil => intro t; rfl
      | cons w ws ih =>
        intro t
        rw [timesT_cons, ih]
        unfold nextT
        split_ifs <;> rfl
    rw [h4] at h3
    have h5 : c1.timer.toNat = c.timer.toNat := h3
    omega

theorem scan_aligned (ws : List U64) (b : Batch) (hb : b ∈ scan ws 0) : b.index % 8 = 0 ∧ b.hits = [] := by
  obtain ⟨i, _, _, rfl⟩ := (mem_scan _ _ _).mp hb
  exact ⟨by show (0 + 8 * i) % 8 = 0; omega, rfl⟩

/-- Processing a stream in one go. -/
theorem processBuffer_stream (m : Mode) (cs : List Chunk) (c : Clock) (hc : c.timer.toNat < 2 ^ 32)
    (hw : ∀ c ∈ cs, c.WellFormed) (hn : ∀ c ∈ cs, c.NoLookAlike) :
    ∃ bs c', processBuffer m (streamBytes cs) c = .ok (bs, c') ∧
      bs.flatMap Batch.hits = passM m c.times (streamPackets cs) ∧
      c'.times = timesM m c.times ((streamPackets cs).map Prod.snd) ∧ c'.timer.toNat < 2 ^ 32 := by
  obtain ⟨bs1, c1, bs2, h1, h2⟩ := c17_defined m (streamBytes cs) (scan (streamWords cs) 0) c
    (by rw [streamBytes_length]; omega) (fun b hb => (scan_aligned _ b hb).1)
  obtain ⟨g1, g2, g3⟩ := two_phase m _ _ _ _ c c1 hc (fun b hb => (scan_aligned _ b hb).2) h1 h2
  have ht := tagged_stream [] cs hw hn
  rw [List.nil_append] at ht
  have ht' : taggedPackets (streamBytes cs) (scan (streamWords cs) 0) = streamPackets cs := ht
  rw [ht'] at g1 g2
  refine ⟨bs2, c1, ?_, g1, g2, g3⟩
  unfold processBuffer
  rw [findTPX3H_eq, wordsOf_streamBytes]
  simp only [bind, Res.bind]
  rw [h1]
  simp only
  rw [h2]

/-- The limited scan of a stream with enough chunks stops at the header of chunk `len`. -/
theorem scanLim_stream (len : Nat) (cs : List Chunk) (off count : Nat) (hcount : count < len)
    (hw : ∀ c ∈ cs, c.WellFormed) (hn : ∀ c ∈ cs, c.NoLookAlike) (hlen : len ≤ count + cs.length) :
    ∃ b, scanLim len (streamWords cs) off count =
      (scan (streamWords (cs.take (len - 1 - count))) off ++ [b],
        off + 8 * (streamWords (cs.take (len - 1 - count))).length) ∧
      b.index = off + 8 * (streamWords (cs.take (len - 1 - count))).length ∧ b.hits = [] := by
  induction cs generalizing off count with
  | nil => simp at hlen; omega
  | cons c cs ih =>
    have hh := (isHeader_iff_starts _).mpr (hw c (by simp)).1
    rw [streamWords_cons, scanLim, if_pos hh]
    by_cases hl : len ≤ count + 1
    · rw [if_pos hl]
      have e : len - 1 - count = 0 := by omega
      rw [e]
      exact ⟨_, rfl, rfl, rfl⟩
    · rw [if_neg hl]
      have hskip : ∀ (ps ws : List U64) (off count : Nat), (∀ w ∈ ps, ¬ StartsTPX w) →
          scanLim len (ps ++ ws) off count = scanLim len ws (off + 8 * ps.length) count := by
        intro ps
        induction ps with
        | nil => intro ws off count _; rfl
        | cons p ps ihp =>
          intro ws off count hp
          have e : off + 8 + 8 * ps.length = off + 8 * (p :: ps).length := by simp only [List.length_cons]; omega
          rw [List.cons_append, scanLim, if_neg (fun x => hp p (by simp) ((isHeader_iff_starts _).mp x)),
            ihp _ _ _ (fun w hw => hp w (by simp [hw])), e]
      rw [hskip _ _ _ _ (hn c (by simp))]
      obtain ⟨b, e, hb1, hb2⟩ := ih (off + 8 + 8 * c.packets.length) (count + 1) (by omega)
        (fun d hd => hw d (by simp [hd])) (fun d hd => hn d (by simp [hd])) (by simp at hlen; omega)
      have e1 : len - 1 - count = (len - 1 - (count + 1)) + 1 := by omega
      have e2 : off + 8 + 8 * c.packets.length + 8 * (streamWords (cs.take (len - 1 - (count + 1)))).length =
          off + 8 * (streamWords (c :: cs.take (len - 1 - (count + 1)))).length := by
        rw [streamWords_cons]
        simp only [List.length_cons, List.length_append]
        omega
      refine ⟨b, ?_, ?_, hb2⟩
      · rw [e, e1, List.take_succ_cons, e2]
        conv_rhs => rw [streamWords_cons]
        rw [scan_chunk _ _ _ (hw c (by simp)), scan_none _ _ (hn c (by simp)), header_batch c (hw c (by simp))]
        rw [← streamWords_cons]
        rfl
      · rw [hb1, e1, List.take_succ_cons, e2]

theorem batchPackets_end (buf : Bytes) (n : Nat) : batchPackets buf buf.length n = [] := by
  unfold batchPackets
  rw [List.drop_of_length_le (by omega), wordsOf_short _ (by simp), List.take_nil]

/-- One round on the rest `cs` of a stream: it processes the first `n` chunks of it. -/
theorem round_stream (m : Mode) (buf : Bytes) (o len : Nat) (cs : List Chunk) (c : Clock) (hlen : 2 ≤ len)
    (hc : c.timer.toNat < 2 ^ 32) (hrest : buf.drop o = streamBytes cs) (hcs : cs ≠ [])
    (hw : ∀ c ∈ cs, c.WellFormed) (hn : ∀ c ∈ cs, c.NoLookAlike) :
    ∃ n bs c', 1 ≤ n ∧ n ≤ cs.length ∧
      limitedRound m buf len o c = .ok (bs, o + (streamBytes (cs.take n)).length, c') ∧
      bs.flatMap Batch.hits = passM m c.times (streamPackets (cs.take n)) ∧
      c'.times = timesM m c.times ((streamPackets (cs.take n)).map Prod.snd) ∧ c'.timer.toNat < 2 ^ 32 := by
  unfold limitedRound
  rw [findTPX3HLim_eq, hrest, wordsOf_streamBytes]
  simp only [bind, Res.bind]
  rcases Nat.lt_or_ge cs.length len with hlt | hge
  · rcases scanLim_cases len (streamWords cs) 0 0 (by omega) with ⟨e, hcnt⟩ | ⟨pre, h, post, hW, hh, hcnt, e⟩
    · refine ⟨cs.length, ?_⟩
      rw [List.take_length, e, Nat.zero_add, ← streamBytes_length, List.take_length]
      obtain ⟨bs, c', hp, g1, g2, g3⟩ := processBuffer_stream m cs c hc hw hn
      unfold processBuffer at hp
      rw [findTPX3H_eq, wordsOf_streamBytes] at hp
      simp only [bind, Res.bind] at hp
      refine ⟨bs, c', List.length_pos_iff.mpr hcs, Nat.le_refl _, ?_, g1, g2, g3⟩
      cases hl : locate m (streamBytes cs) (scan (streamWords cs) 0) c with
      | ok r =>
        rw [hl] at hp
        simp only at hp ⊢
        cases hx : extractAll m (streamBytes cs) r.1 with
        | ok t =>
          rw [hx] at hp
          injection hp with hp
          injection hp with hp1 hp2
          subst hp1 hp2
          rfl
        | throws e => rw [hx] at hp; simp at hp
        | ub u => rw [hx] at hp; simp at hp
      | throws e => rw [hl] at hp; simp at hp
      | ub u => rw [hl] at hp; simp at hp
    · have h1 := countP_stream cs hw
      have h2 : (cs.map fun c => c.packets.countP (fun w => StartsTPX w)).sum = 0 := by
        rw [sum_zero_iff]
        intro x hx
        obtain ⟨d, hd, rfl⟩ := List.mem_map.mp hx
        rw [List.countP_eq_zero]
        intro w hw'
        simpa using hn d hd w hw'
      rw [hW, List.countP_append, List.countP_cons] at h1
      simp [hh] at h1
      omega
  · obtain ⟨b, e, hb1, hb2⟩ := scanLim_stream len cs 0 0 (by omega) hw hn (by omega)
    rw [e, Nat.sub_zero, Nat.zero_add]
    rw [Nat.sub_zero, Nat.zero_add] at hb1
    refine ⟨len - 1, ?_⟩
    generalize hds : cs.take (len - 1) = ds at *
    have hsub : (streamBytes cs).take (8 * (streamWords ds).length) = streamBytes ds := by
      rw [← List.take_append_drop (len - 1) cs, streamBytes_append, hds, ← streamBytes_length, List.take_left]
    simp only
    rw [hsub]
    have hwd : ∀ d ∈ ds, d.WellFormed := fun d hd => hw d (List.mem_of_mem_take (by rw [hds]; exact hd))
    have hnd : ∀ d ∈ ds, d.NoLookAlike := fun d hd => hn d (List.mem_of_mem_take (by rw [hds]; exact hd))
    have hbl : b.index = (streamBytes ds).length := by rw [hb1, streamBytes_length]
    have hal : ∀ b' ∈ scan (streamWords ds) 0 ++ [b], b'.index % 8 = 0 := by
      intro b' hb'
      rcases List.mem_append.mp hb' with hb' | hb'
      · exact (scan_aligned _ _ hb').1
      · rw [List.mem_singleton.mp hb', hb1]; omega
    have hem : ∀ b' ∈ scan (streamWords ds) 0 ++ [b], b'.hits = [] := by
      intro b' hb'
      rcases List.mem_append.mp hb' with hb' | hb'
      · exact (scan_aligned _ _ hb').2
      · rw [List.mem_singleton.mp hb', hb2]
    obtain ⟨bs1, c1, bs2, h1, h2⟩ := c17_defined m (streamBytes ds) (scan (streamWords ds) 0 ++ [b]) c
      (by rw [streamBytes_length]; omega) hal
    obtain ⟨g1, g2, g3⟩ := two_phase m _ _ _ _ c c1 hc hem h1 h2
    have ht : taggedPackets (streamBytes ds) (scan (streamWords ds) 0 ++ [b]) = streamPackets ds := by
      have ht := tagged_stream [] ds hwd hnd
      rw [List.nil_append] at ht
      have ht' : taggedPackets (streamBytes ds) (scan (streamWords ds) 0) = streamPackets ds := ht
      rw [← ht']
      unfold taggedPackets
      rw [List.flatMap_append, List.flatMap_cons, hbl, batchPackets_end]
      simp
    rw [ht] at g1 g2
    refine ⟨bs2, c1, by omega, by omega, ?_, g1, g2, g3⟩
    rw [h1]
    simp only
    rw [h2, streamBytes_length]

theorem limitedRun_stream (m : Mode) (buf : Bytes) (len : Nat) (hlen : 2 ≤ len) (fuel : Nat) (o : Nat) (c : Clock)
    (hs : List Hit) (cs : List Chunk) (ho : o ≤ buf.length) (hc : c.timer.toNat < 2 ^ 32)
    (hrest : buf.drop o = streamBytes cs)
    (hw : ∀ c ∈ cs, c.WellFormed) (hn : ∀ c ∈ cs, c.NoLookAlike) (hfuel : cs.length ≤ fuel) :
    ∃ c', limitedRun m buf len fuel o c hs = .ok (some (hs ++ passM m c.times (streamPackets cs), c')) ∧
      c'.times = timesM m c.times ((streamPackets cs).map Prod.snd) := by
  have hlen0 : buf.length - o = (streamBytes cs).length := by rw [← hrest, List.length_drop]
  induction fuel generalizing o c hs cs with
  | zero =>
    have hcs : cs = [] := List.eq_nil_of_length_eq_zero (by omega)
    subst hcs
    refine ⟨c, ?_, by cases m <;> rfl⟩
    have h0 : (streamBytes []).length = 0 := rfl
    rw [limitedRun, if_neg (by omega)]
    cases m <;> simp [streamPackets, passM, passG, passT]
  | succ fuel ih =>
    rw [limitedRun]
    by_cases hcs : cs = []
    · subst hcs
      have h0 : (streamBytes []).length = 0 := rfl
      refine ⟨c, ?_, by cases m <;> rfl⟩
      rw [if_neg (by omega)]
      cases m <;> simp [streamPackets, passM, passG, passT]
    · have hpos : 0 < (streamBytes cs).length := by
        cases cs with
        | nil => exact absurd rfl hcs
        | cons d ds => rw [streamBytes_length, streamWords_cons]; simp
      rw [if_pos (by omega)]
      obtain ⟨n, bs, c', hn1, hn2, hr, g1, g2, g3⟩ := round_stream m buf o len cs c hlen hc hrest hcs hw hn
      rw [hr]
      have hsplit : streamBytes cs = streamBytes (cs.take n) ++ streamBytes (cs.drop n) := by
        rw [← streamBytes_append, List.take_append_drop]
      have hsl := congrArg List.length hsplit
      rw [List.length_append] at hsl
      obtain ⟨c'', e, ht⟩ := ih (o + (streamBytes (cs.take n)).length) c' (hs ++ bs.flatMap Batch.hits) (cs.drop n)
        (by omega) g3 (by rw [← List.drop_drop, hrest, hsplit, List.drop_left])
        (fun d hd => hw d (List.mem_of_mem_drop hd)) (fun d hd => hn d (List.mem_of_mem_drop hd))
        (by rw [List.length_drop]; omega) (by omega)
      have hpk : streamPackets cs = streamPackets (cs.take n) ++ streamPackets (cs.drop n) := by
        unfold streamPackets; rw [← List.flatMap_append, List.take_append_drop]
      refine ⟨c'', ?_, ?_⟩
      · simp only
        rw [e, g1, g2, hpk, passM_append, List.append_assoc]
      · rw [ht, g2, hpk, List.map_append, timesM_append]

/-- C13, result: on a well-formed stream without header look-alikes, with a limit of at least two batches per
round, the loop ends after at most as many rounds as there are chunks, with the same hits in the same order and
the same timestamps as processing the whole buffer at once.  Missing: limit 1, buffers with incomplete words
(see `c13_terminates_iff`: the loop never ends) and look-alikes. -/
theorem c13_same_hits_partial (m : Mode) (cs : List Chunk) (len : Nat) (c : Clock) (hlen : 2 ≤ len)
    (hc : c.timer.toNat < 2 ^ 32) (hw : ∀ c ∈ cs, c.WellFormed) (hn : ∀ c ∈ cs, c.NoLookAlike) :
    ∃ bs c', processBuffer m (streamBytes cs) c = .ok (bs, c') ∧
      ∀ fuel, cs.length ≤ fuel →
        limitedRun m (streamBytes cs) len fuel 0 c [] = .ok (some (bs.flatMap Batch.hits, c')) := by
  obtain ⟨bs, c', hp, g1, g2, _⟩ := processBuffer_stream m cs c hc hw hn
  refine ⟨bs, c', hp, fun fuel hf => ?_⟩
  obtain ⟨c'', e, ht⟩ := limitedRun_stream m (streamBytes cs) len hlen fuel 0 c [] cs (Nat.zero_le _) hc rfl hw hn hf
  rw [e, g1, List.nil_append, clock_ext c'' c' (ht.trans g2.symm)]

/-- Three chunks, two per round, two hits in all. -/
example : ∃ c', limitedRun .tdc (streamBytes [⟨0x0010000033585054#64, [0x6F00000000005000#64, 0xB000000000000000#64]⟩,
    ⟨0x0008000133585054#64, [0xB000000000000001#64]⟩, ⟨0x0000000233585054#64, []⟩]) 2 3 0 Clock.zero [] =
    .ok (some c') ∧ c'.1.length = 2 := ⟨_, rfl, by decide⟩

/-- C13 is false as stated: with limit 1 a buffer holding one empty chunk is scanned for ever. -/
theorem c13_false_limit_one : ∃ buf : Bytes, ∀ fuel,
    limitedRun .gdc buf 1 fuel 0 Clock.zero [] = .ok none := by
  refine ⟨bytesOf 0x0000000033585054#64, fun fuel => ?_⟩
  exact limitedRun_stuck .gdc (bytesOf 0x0000000033585054#64) 0 (by decide) (by decide) fuel 0 Clock.zero []
    (Nat.le_refl _)

/-- C13 is false as stated: one extra byte at the end, and the loop never ends, whatever the limit. -/
theorem c13_false_trailing : ∃ buf : Bytes, ∀ len fuel, 1 ≤ len →
    limitedRun .gdc buf len fuel 0 Clock.zero [] = .ok none := by
  refine ⟨bytesOf 0x0000000033585054#64 ++ [0], fun len fuel hl => ?_⟩
  exact limitedRun_unaligned .gdc _ len hl (by decide) fuel 0 Clock.zero [] (Nat.zero_le _)

end Verif.Props
