import Verif.Spec.Display
import Verif.Spec.Legacy
import Verif.Lemmas.Tpx3
import Verif.Lemmas.Scan
import Verif.Props.Legacy

/-! # Reading a file in the display program (C64–C66) -/

namespace Verif.Props

open Verif Verif.Spec

theorem dated_append (t : Nat) (ps qs : List (Int × U64)) :
    dated t (ps ++ qs) = dated t ps ++ dated (lastTrigger t ps) qs := by
  induction ps generalizing t with
  | nil => rfl
  | cons p ps ih =>
    obtain ⟨chip, w⟩ := p
    simp only [List.cons_append, dated, lastTrigger]
    by_cases h : IsHitPacket w
    · have h2 : ¬ IsTriggerPacket w := fun h2 => (trigger_not_hit w h2).1 h
      simp only [h, h2, if_true, if_false, ih, List.cons_append]
    · by_cases h2 : IsTriggerPacket w
      · simp only [h, h2, if_true, if_false, ih]
      · simp only [h, h2, if_false, ih]

theorem lastTrigger_append (t : Nat) (ps qs : List (Int × U64)) :
    lastTrigger t (ps ++ qs) = lastTrigger (lastTrigger t ps) qs := by
  induction ps generalizing t with
  | nil => rfl
  | cons p ps ih =>
    obtain ⟨chip, w⟩ := p
    simp only [List.cons_append, lastTrigger]
    split_ifs <;> exact ih _

theorem clock30_lt (w : U64) : clock30 w < 2 ^ 30 := by rw [clock30_eq]; exact rawSpider_lt w

theorem displayTof_toNat (w tdc : U64) :
    (displayTof w tdc).toNat = (clock30 w + 2 ^ 32 - tdc.toNat % 2 ^ 32) % 2 ^ 32 := by
  unfold displayTof
  rw [clock30_eq]
  have h := rawSpider_lt w
  have ht := tdc.isLt
  generalize rawSpider w = r at *
  rw [BitVec.toNat_setWidth, BitVec.toNat_sub, BitVec.toNat_setWidth]
  simp only [Nat.reducePow] at *
  omega

/-- The hit shows its packet. -/
theorem shows_displayHit (chip : Int) (w tdc : U64) : Shows chip tdc.toNat w (displayHit chip w tdc) := by
  unfold Shows displayHit
  simp only
  refine ⟨by rw [decTot_eq]; rfl, by rw [decToa_eq]; rfl, by rw [decFtoa_eq]; rfl, by rw [clock30_eq], ?_, ?_⟩
  · rw [displayTof_toNat]
    have := clock30_lt w
    simp only [Nat.reducePow] at *
    omega
  · unfold displayXY chipX chipY field
    rw [pixelXY_eq, decPixaddr_toNat]
    simp only [Nat.reducePow]
    split_ifs <;> simp only [Prod.mk.injEq] <;> omega

theorem ofRat_small {q : ℚ} (h : |q| ≤ 2 ^ 60) : F64.ofRat q = .fin (rndQ q) := by
  apply F64.ofRat_fin
  calc |q| ≤ (2 : ℚ) ^ (60 : ℕ) := h
    _ = 2 ^ (60 : ℤ) := by norm_num
    _ ≤ 2 ^ (1000 : ℤ) := zpow_le_zpow_right₀ (by norm_num) (by norm_num)

theorem F64_quarter (n : ℕ) (h : n < 2 ^ 32) :
    (F64.mul (F64.ofInt n) (F64.ofRat (1 / 4))).toI32? = some ((n / 4 : ℕ) : ℤ) := by
  have hn : (n : ℚ) ≤ 2 ^ 32 := by exact_mod_cast h.le
  have e1 : F64.ofInt n = .fin (n : ℚ) := by
    have := F64.ofInt_exact (n := (n : ℤ)) (by rw [abs_of_nonneg (by omega)]; omega)
    simpa using this
  have e2 : F64.ofRat (1 / 4) = .fin (1 / 4) := by
    rw [ofRat_small (by norm_num), rndQ_of_grid 1 (-2) (by norm_num) (by norm_num) (by norm_num)]
  have e3 : F64.ofRat ((n : ℚ) * (1 / 4)) = .fin ((n : ℚ) * (1 / 4)) := by
    rw [ofRat_small, rndQ_of_grid (n : ℤ) (-2) (by push_cast; norm_num) (by norm_num)
      (by rw [abs_of_nonneg (by omega)]; omega)]
    rw [abs_of_nonneg (by positivity)]
    linarith
  have e4 : F64.truncQ ((n : ℚ) * (1 / 4)) = ((n / 4 : ℕ) : ℤ) := by
    unfold F64.truncQ
    rw [if_pos (by positivity), mul_one_div]
    have := Rat.floor_intCast_div_natCast (n : ℤ) 4
    push_cast at this
    rw [this]
    omega
  rw [e1, e2]
  simp only [F64.mul]
  rw [e3]
  simp only [F64.toI32?, e4]
  rw [if_pos]
  simp only [Int.reducePow, Int.reduceNeg, Nat.reducePow] at *
  omega

theorem tofIndex_eq (chip : Int) (w tdc : U64) : tofIndex w tdc = .ok (countedAt (tdc.toNat, chip, w)) := by
  unfold tofIndex countedAt
  have hb := (displayTof w tdc).isLt
  have hq : (displayTof w tdc).toNat / 4 = tof100 tdc.toNat w := by rw [displayTof_toNat]; rfl
  rw [F64_quarter _ hb, hq]
  simp only
  have hx : (pixelXY (decPixaddr w)).1 = chipX w ∧ (pixelXY (decPixaddr w)).2 = chipY w := by
    rw [pixelXY_eq, decPixaddr_toNat]
    unfold chipX chipY field
    simp only [Nat.reducePow]
    omega
  rw [hx.1, hx.2, if_neg (by omega : ¬ ((tof100 tdc.toNat w : ℕ) : ℤ) < 0)]
  by_cases hc : tof100 tdc.toNat w < 170000 ∧ 250 < chipX w ∧ chipX w < 425 ∧ 125 < chipY w ∧ chipY w < 325
  · rw [if_pos hc, if_pos (by omega)]
  · rw [if_neg hc, if_neg (by omega)]

/-- Effect of a list of packets on the results. -/
structure Effect (s s' : ParseState) (ps : List (Int × U64)) : Prop where
  tdc : s'.tdc.toNat = lastTrigger s.tdc.toNat ps
  hits : s'.hits = s.hits ++ (dated s.tdc.toNat ps).map fun d => displayHit d.2.1 d.2.2 (BitVec.ofNat 64 d.1)
  tofs : s'.tofs = s.tofs ++ (dated s.tdc.toNat ps).flatMap countedAt

theorem Effect.trans {s t u : ParseState} {ps qs : List (Int × U64)} (h : Effect s t ps) (k : Effect t u qs) :
    Effect s u (ps ++ qs) := by
  refine ⟨?_, ?_, ?_⟩
  · rw [k.tdc, h.tdc, lastTrigger_append]
  · rw [k.hits, h.hits, h.tdc, dated_append, List.map_append, List.append_assoc]
  · rw [k.tofs, h.tofs, h.tdc, dated_append, List.flatMap_append, List.append_assoc]

theorem trigger_value (w : U64) : ((w >>> 12) &&& 0x3fffffff#64).toNat = field w 12 30 := by
  unfold field
  bits_to_nat

theorem displayPacket_effect (chip : Int) (w : U64) (s : ParseState) :
    ∃ s', displayPacket chip w s = .ok s' ∧ Effect s s' [(chip, w)] ∧ s'.rest = s.rest ∧ s'.inbytes = s.inbytes ∧
      s'.data = s.data ∧ s'.bytesRead = s.bytesRead ∧ s'.headers = s.headers := by
  unfold displayPacket
  by_cases h : IsHitPacket w
  · have h2 : ¬ IsTriggerPacket w := fun h2 => (trigger_not_hit w h2).1 h
    rw [if_pos ((isHit_iff w).mpr h), tofIndex_eq chip]
    refine ⟨_, rfl, ⟨?_, ?_, ?_⟩, rfl, rfl, rfl, rfl, rfl⟩
    · simp [lastTrigger, h2]
    · simp [dated, h]
    · simp [dated, h]
  · rw [if_neg (fun h1 => h ((isHit_iff w).mp h1))]
    by_cases h2 : IsTriggerPacket w
    · rw [if_pos ((isTdc_iff w).mpr h2)]
      refine ⟨_, rfl, ⟨?_, ?_, ?_⟩, rfl, rfl, rfl, rfl, rfl⟩
      · simp only [lastTrigger, h2, if_true]; exact trigger_value w
      · simp [dated, h, h2]
      · simp [dated, h, h2]
    · rw [if_neg (fun h1 => h2 ((isTdc_iff w).mp h1))]
      have key : ∀ n, Effect s { s with gdcs := n } [(chip, w)] := fun n =>
        ⟨by simp [lastTrigger, h2], by simp [dated, h, h2], by simp [dated, h, h2]⟩
      by_cases h3 : isGdc w = true
      · rw [if_pos h3]
        exact ⟨_, rfl, key _, rfl, rfl, rfl, rfl, rfl⟩
      · rw [if_neg h3]
        exact ⟨_, rfl, key s.gdcs, rfl, rfl, rfl, rfl, rfl⟩

theorem mapM_some (l : Bytes) : (l.map some).mapM id = some l := by
  induction l with
  | nil => rfl
  | cons x l ih => simp [List.mapM_cons, ih]

theorem fill_full (b : CharBuf) (hb : b.length = 8) (w : U64) : b.fill (bytesOf w) = (bytesOf w).map some := by
  unfold CharBuf.fill
  rw [bytesOf_length, List.drop_of_length_le (by omega), List.append_nil]

theorem word_full (w : U64) : CharBuf.word ((bytesOf w).map some) = .ok w := by
  unfold CharBuf.word
  rw [mapM_some]
  simp only
  have h := headWord_bytesOf w []
  unfold headWord at h
  rw [List.append_nil, List.take_of_length_le (by rw [bytesOf_length])] at h
  rw [h]

theorem byte_full (w : U64) (k : Nat) (h : k < 8) : CharBuf.byte ((bytesOf w).map some) k = .ok (byteOf w k) := by
  unfold CharBuf.byte bytesOf
  have : ((List.range 8).map (byteOf w)).map some = (List.range 8).map fun i => some (byteOf w i) := by
    rw [List.map_map]; rfl
  rw [this, List.getD_eq_getElem?_getD, List.getElem?_map, List.getElem?_range h]
  rfl

theorem isTPX_full (w : U64) : CharBuf.isTPX ((bytesOf w).map some) = .ok (isHeader w) := by
  unfold CharBuf.isTPX isHeader
  rw [byte_full _ _ (by omega), byte_full _ _ (by omega), byte_full _ _ (by omega)]
  simp only [bind, Res.bind, pure]
  by_cases h0 : byteOf w 0 = 0x54#8
  · by_cases h1 : byteOf w 1 = 0x50#8
    · simp [h0, h1]; rfl
    · simp [h0, h1]
  · simp [h0]

theorem take_bytesOf (w : U64) (r : Bytes) : (bytesOf w ++ r).take 8 = bytesOf w ∧ (bytesOf w ++ r).drop 8 = r := by
  have := bytesOf_length w
  constructor
  · rw [← this, List.take_left]
  · rw [← this, List.drop_left]

/-- The last word read. -/
def lastData (d : CharBuf) : List U64 → CharBuf
  | [] => d
  | w :: ws => lastData ((bytesOf w).map some) ws

/-- The packets that are there. -/
theorem displayPackets_full (chip : Int) (ws : List U64) (r : Bytes) (s : ParseState) (h : s.rest = ws.flatMap bytesOf ++ r)
    (hd : s.data.length = 8) :
    ∃ s', (∀ k, displayPackets chip (ws.length + k) s = displayPackets chip k s') ∧
      Effect s s' (ws.map fun w => (chip, w)) ∧ s'.rest = r ∧ s'.inbytes = s.inbytes ∧ s'.data = lastData s.data ws ∧
      s'.bytesRead = s.bytesRead + 8 * ws.length ∧ s'.headers = s.headers := by
  induction ws generalizing s with
  | nil =>
    refine ⟨s, fun k => by simp, ⟨rfl, by simp [dated], by simp [dated]⟩, by simpa using h, rfl, rfl, by simp, rfl⟩
  | cons w ws ih =>
    rw [List.flatMap_cons, List.append_assoc] at h
    obtain ⟨t1, t2⟩ := take_bytesOf w (ws.flatMap bytesOf ++ r)
    generalize hs1 : ({ s with data := (bytesOf w).map some, rest := ws.flatMap bytesOf ++ r,
                               bytesRead := s.bytesRead + 8 } : ParseState) = s1
    obtain ⟨s2, e1, e2, e3, e4, e5, e6, e7⟩ := displayPacket_effect chip w s1
    obtain ⟨s3, f1, f2, f3, f4, f5, f6, f7⟩ := ih s2 (by rw [e3, ← hs1]) (by rw [e5, ← hs1]; simp [bytesOf_length])
    refine ⟨s3, fun k => ?_, ?_, f3, ?_, ?_, ?_, ?_⟩
    · have hl : (w :: ws).length + k = ws.length + k + 1 := by simp only [List.length_cons]; omega
      rw [hl, displayPackets]
      simp only [h, t1, t2, fill_full _ hd, bytesOf_length, hs1]
      rw [word_full]
      simp only [bind, Res.bind, e1, f1]
    · have : Effect s s2 [(chip, w)] := by
        obtain ⟨a1, a2, a3⟩ := e2
        rw [← hs1] at a1 a2 a3
        exact ⟨a1, a2, a3⟩
      exact this.trans f2
    · rw [f4, e4, ← hs1]
    · rw [f5, e5, ← hs1]; rfl
    · rw [f6, e6, ← hs1]; simp only [List.length_cons]; omega
    · rw [f7, e7, ← hs1]

/-- Past the end of the file the last word is read again and again. -/
theorem displayPackets_stale (chip : Int) (w : U64) (n : Nat) (s : ParseState) (h : s.rest = [])
    (hd : s.data = (bytesOf w).map some) :
    ∃ s', displayPackets chip n s = .ok s' ∧ Effect s s' (List.replicate n (chip, w)) ∧ s'.rest = [] ∧
      s'.inbytes = s.inbytes ∧ s'.data = s.data ∧ s'.bytesRead = s.bytesRead ∧ s'.headers = s.headers := by
  induction n generalizing s with
  | zero => exact ⟨s, rfl, ⟨rfl, by simp [dated], by simp [dated]⟩, h, rfl, rfl, rfl, rfl⟩
  | succ n ih =>
    obtain ⟨s2, e1, e2, e3, e4, e5, e6, e7⟩ := displayPacket_effect chip w s
    obtain ⟨s3, f1, f2, f3, f4, f5, f6, f7⟩ := ih s2 (by rw [e3, h]) (by rw [e5, hd])
    refine ⟨s3, ?_, e2.trans f2, f3, by rw [f4, e4], by rw [f5, e5], by rw [f6, e6], by rw [f7, e7]⟩
    rw [displayPackets]
    have hs : ({ s with data := s.data.fill (s.rest.take 8), rest := s.rest.drop 8,
                        bytesRead := s.bytesRead + (s.rest.take 8).length } : ParseState) = s := by
      rw [h]
      obtain ⟨a, b, c, d, e, f, g, i, j, k⟩ := s
      simp only at h
      subst h
      simp [CharBuf.fill]
    rw [hs, hd, word_full]
    simp only [bind, Res.bind, e1, f1]

theorem byte_toInt (b : Byte) : b.toInt = if b.toNat < 128 then (b.toNat : ℤ) else (b.toNat : ℤ) - 256 := by
  rw [BitVec.toInt_eq_toNat_cond]
  have := b.isLt
  split_ifs <;> omega

/-- The number of packets read as such. -/
theorem displayWords_eq (w : U64) (n : Nat) (h : field w 48 16 = 8 * n) :
    (displayWords (byteOf w 7) (byteOf w 6)).toNat = shownCount n := by
  unfold displayWords shownCount
  rw [byte_toInt, byte_toInt, byteOf_toNat, byteOf_toNat]
  unfold field at h
  have hw := w.isLt
  simp only [Nat.reducePow, Nat.reduceMul] at *
  split_ifs <;> omega

/-- A word that is no header is skipped. -/
theorem displayLoop_skip (fuel : Nat) (w : U64) (r : Bytes) (s : ParseState) (h : s.rest = bytesOf w ++ r)
    (hi : s.inbytes.length = 8) (hw : ¬ StartsTPX w) :
    displayLoop (fuel + 1) s =
      displayLoop fuel { s with inbytes := (bytesOf w).map some, rest := r, bytesRead := s.bytesRead + 8 } := by
  obtain ⟨t1, t2⟩ := take_bytesOf w r
  have hne : s.rest ≠ [] := by rw [h]; intro hc; have := congrArg List.length hc; simp [bytesOf_length] at this
  rw [displayLoop, if_neg hne]
  simp only [h, t1, t2, fill_full _ hi, bytesOf_length]
  rw [isTPX_full]
  have hf : isHeader w = false := by
    rw [Bool.eq_false_iff]
    exact fun hc => hw ((isHeader_iff_starts w).mp hc)
  simp only [bind, Res.bind, hf]
  rfl

theorem displayLoop_skips (ws : List U64) (fuel : Nat) (r : Bytes) (s : ParseState) (h : s.rest = ws.flatMap bytesOf ++ r)
    (hi : s.inbytes.length = 8) (hw : ∀ w ∈ ws, ¬ StartsTPX w) :
    ∃ s', displayLoop (fuel + ws.length) s = displayLoop fuel s' ∧ Effect s s' [] ∧ s'.rest = r ∧
      s'.inbytes.length = 8 ∧ s'.data = s.data ∧ s'.bytesRead = s.bytesRead + 8 * ws.length ∧ s'.headers = s.headers := by
  induction ws generalizing s with
  | nil => exact ⟨s, rfl, ⟨rfl, by simp [dated], by simp [dated]⟩, by simpa using h, hi, rfl, by simp, rfl⟩
  | cons w ws ih =>
    rw [List.flatMap_cons, List.append_assoc] at h
    obtain ⟨s', e1, e2, e3, e4, e5, e6, e7⟩ := ih
      { s with inbytes := (bytesOf w).map some, rest := ws.flatMap bytesOf ++ r, bytesRead := s.bytesRead + 8 } rfl
      (by simp [bytesOf_length]) (fun v hv => hw v (by simp [hv]))
    refine ⟨s', ?_, ⟨e2.tdc, e2.hits, e2.tofs⟩, e3, e4, e5, ?_, e7⟩
    · rw [List.length_cons, ← Nat.add_assoc, displayLoop_skip _ w _ s h hi (hw w (by simp)), e1]
    · rw [e6]; simp only [List.length_cons]; omega

/-- A header, up to the packets. -/
theorem displayLoop_header (fuel : Nat) (w : U64) (r : Bytes) (s : ParseState) (h : s.rest = bytesOf w ++ r)
    (hi : s.inbytes.length = 8) (hw : StartsTPX w) (n : Nat) (hn : field w 48 16 = 8 * n) :
    displayLoop (fuel + 1) s =
      (displayPackets (headerChipId w) (shownCount n)
        { s with inbytes := (bytesOf w).map some, rest := r, bytesRead := s.bytesRead + 8,
                 headers := s.headers + 1 }).bind (displayLoop fuel) := by
  obtain ⟨t1, t2⟩ := take_bytesOf w r
  have hne : s.rest ≠ [] := by rw [h]; intro hc; have := congrArg List.length hc; simp [bytesOf_length] at this
  rw [displayLoop, if_neg hne]
  simp only [h, t1, t2, fill_full _ hi, bytesOf_length]
  rw [isTPX_full, (isHeader_iff_starts w).mpr hw, byte_full _ _ (by omega), byte_full _ _ (by omega),
    byte_full _ _ (by omega)]
  simp only [bind, Res.bind, if_true, displayWords_eq w n hn]
  rw [← headerChip_eq]
  rfl

theorem lastData_length (d : CharBuf) (hd : d.length = 8) (ws : List U64) : (lastData d ws).length = 8 := by
  induction ws generalizing d with
  | nil => exact hd
  | cons w ws ih => exact ih _ (by simp [bytesOf_length])

theorem displayLoop_chunk (c : Chunk) (hc : c.WellFormed) (hl : c.NoLookAlike) (fuel : Nat) (r : Bytes) (s : ParseState)
    (h : s.rest = streamBytes [c] ++ r) (hi : s.inbytes.length = 8) (hd : s.data.length = 8)
    (hf : (streamBytes [c] ++ r).length < 8 * fuel) :
    ∃ s' fuel', displayLoop fuel s = displayLoop fuel' s' ∧ r.length < 8 * fuel' ∧ Effect s s' (shownPackets [c]) ∧
      s'.rest = r ∧ s'.inbytes.length = 8 ∧ s'.data.length = 8 ∧
      s'.bytesRead = s.bytesRead + (streamBytes [c]).length ∧ s'.headers = s.headers + 1 := by
  have hk : shownCount c.packets.length ≤ c.packets.length := by unfold shownCount; split_ifs <;> omega
  generalize hkk : shownCount c.packets.length = k at hk
  have hb : streamBytes [c] = bytesOf c.header ++ ((c.packets.take k).flatMap bytesOf ++ (c.packets.drop k).flatMap bytesOf) := by
    rw [← List.flatMap_append, List.take_append_drop]
    simp [streamBytes, streamWords]
  have hlen : (streamBytes [c]).length = 8 + 8 * c.packets.length := by
    rw [streamBytes_length]; simp [streamWords]; omega
  rw [List.length_append, hlen] at hf
  obtain ⟨fuel, rfl⟩ : ∃ f, fuel = f + (c.packets.drop k).length + 1 :=
    ⟨fuel - (c.packets.drop k).length - 1, by rw [List.length_drop]; omega⟩
  rw [hb, List.append_assoc, List.append_assoc] at h
  obtain ⟨s1, e1, e2, e3, e4, e5, e6, e7⟩ := displayPackets_full (headerChipId c.header) (c.packets.take k)
    ((c.packets.drop k).flatMap bytesOf ++ r)
    { s with inbytes := (bytesOf c.header).map some,
             rest := (c.packets.take k).flatMap bytesOf ++ ((c.packets.drop k).flatMap bytesOf ++ r),
             bytesRead := s.bytesRead + 8, headers := s.headers + 1 } rfl hd
  obtain ⟨s2, f1, f2, f3, f4, f5, f6, f7⟩ := displayLoop_skips (c.packets.drop k) fuel r s1 e3
    (by rw [e4]; simp [bytesOf_length]) (fun w hw => hl w (List.mem_of_mem_drop hw))
  refine ⟨s2, fuel, ?_, ?_, ?_, f3, f4, ?_, ?_, ?_⟩
  · rw [displayLoop_header _ _ _ s h hi hc.1 _ hc.2, hkk]
    have hl : (c.packets.take k).length = k := by rw [List.length_take]; omega
    have := e1 0
    rw [hl, Nat.add_zero] at this
    rw [this]
    simp only [displayPackets, Res.bind]
    exact f1
  · rw [List.length_drop] at hf; omega
  · have hsp : shownPackets [c] = (c.packets.take k).map (fun w => (headerChipId c.header, w)) ++ [] := by
      simp [shownPackets, hkk]
    rw [hsp]
    exact Effect.trans ⟨e2.tdc, e2.hits, e2.tofs⟩ f2
  · rw [f5, e5]
    exact lastData_length _ hd _
  · rw [f6, e6, hlen]
    simp only [List.length_take, List.length_drop]
    omega
  · rw [f7, e7]

theorem displayLoop_stream (cs : List Chunk) (hc : ∀ c ∈ cs, c.WellFormed) (hl : ∀ c ∈ cs, c.NoLookAlike) (fuel : Nat)
    (r : Bytes) (s : ParseState) (h : s.rest = streamBytes cs ++ r) (hi : s.inbytes.length = 8) (hd : s.data.length = 8)
    (hf : (streamBytes cs ++ r).length < 8 * fuel) :
    ∃ s' fuel', displayLoop fuel s = displayLoop fuel' s' ∧ r.length < 8 * fuel' ∧ Effect s s' (shownPackets cs) ∧
      s'.rest = r ∧ s'.inbytes.length = 8 ∧ s'.data.length = 8 ∧
      s'.bytesRead = s.bytesRead + (streamBytes cs).length ∧ s'.headers = s.headers + cs.length := by
  induction cs generalizing s fuel with
  | nil =>
    refine ⟨s, fuel, rfl, by simpa [streamBytes, streamWords] using hf, ⟨rfl, by simp [shownPackets, dated], by simp [shownPackets, dated]⟩,
      by simpa [streamBytes, streamWords] using h, hi, hd, by simp [streamBytes, streamWords], rfl⟩
  | cons c cs ih =>
    have hb : streamBytes (c :: cs) = streamBytes [c] ++ streamBytes cs := streamBytes_append [c] cs
    rw [hb, List.append_assoc] at h hf
    obtain ⟨s1, f1, a1, a2, a3, a4, a5, a6, a7, a8⟩ := displayLoop_chunk c (hc c (by simp)) (hl c (by simp)) fuel _ s h hi hd hf
    obtain ⟨s2, f2, b1, b2, b3, b4, b5, b6, b7, b8⟩ := ih (fun d hd => hc d (by simp [hd])) (fun d hd => hl d (by simp [hd]))
      f1 s1 a4 a5 a6 a2
    refine ⟨s2, f2, by rw [a1, b1], b2, ?_, b4, b5, b6, ?_, ?_⟩
    · have : shownPackets (c :: cs) = shownPackets [c] ++ shownPackets cs := by simp [shownPackets]
      rw [this]
      exact a3.trans b3
    · rw [b7, a7, hb, List.length_append]; omega
    · rw [b8, a8, List.length_cons]; omega

/-- State in which `filetohits` starts. -/
theorem fileToHits_stream (cs : List Chunk) (hc : ∀ c ∈ cs, c.WellFormed) (hl : ∀ c ∈ cs, c.NoLookAlike) (r : Bytes) :
    ∃ s fuel, fileToHits (streamBytes cs ++ r) = displayLoop fuel s ∧ r.length < 8 * fuel ∧ s.rest = r ∧
      s.inbytes.length = 8 ∧ s.data.length = 8 ∧ s.tdc.toNat = lastTrigger 0 (shownPackets cs) ∧
      s.hits = (dated 0 (shownPackets cs)).map (fun d => displayHit d.2.1 d.2.2 (BitVec.ofNat 64 d.1)) ∧
      s.tofs = (dated 0 (shownPackets cs)).flatMap countedAt ∧
      s.bytesRead = (streamBytes cs).length ∧ s.headers = cs.length := by
  obtain ⟨s, f, a1, a2, a3, a4, a5, a6, a7, a8⟩ := displayLoop_stream cs hc hl ((streamBytes cs ++ r).length + 1) r
    ⟨streamBytes cs ++ r, List.replicate 8 none, List.replicate 8 none, 0#64, [], [], 0, 0, 0, 0⟩ rfl (by simp) (by simp)
    (by omega)
  exact ⟨s, f, a1, a2, a4, a5, a6, a3.tdc, by simpa using a3.hits, by simpa using a3.tofs, by simpa using a7, by simpa using a8⟩

theorem displayLoop_end (fuel : Nat) (s : ParseState) (h : s.rest = []) : displayLoop fuel s = .ok s := by
  cases fuel with
  | zero => rfl
  | succ n => rw [displayLoop, if_pos h]

theorem dated_lt (t : Nat) (ps : List (Int × U64)) (ht : t < 2 ^ 30) : ∀ d ∈ dated t ps, d.1 < 2 ^ 30 := by
  induction ps generalizing t with
  | nil => simp [dated]
  | cons p ps ih =>
    obtain ⟨chip, w⟩ := p
    have hf : field w 12 30 < 2 ^ 30 := Nat.mod_lt _ (by norm_num)
    unfold dated
    split_ifs
    · intro d hd
      rcases List.mem_cons.mp hd with rfl | hd
      · exact ht
      · exact ih t ht d hd
    · exact ih _ hf
    · exact ih t ht

theorem shows_dated (t : Nat) (ps : List (Int × U64)) (ht : t < 2 ^ 30) :
    List.Forall₂ (fun d h => Shows d.2.1 d.1 d.2.2 h) (dated t ps)
      ((dated t ps).map fun d => displayHit d.2.1 d.2.2 (BitVec.ofNat 64 d.1)) := by
  rw [List.forall₂_map_right_iff, List.forall₂_same]
  intro d hd
  have h1 := dated_lt t ps ht d hd
  have h2 := shows_displayHit d.2.1 d.2.2 (BitVec.ofNat 64 d.1)
  rwa [BitVec.toNat_ofNat, Nat.mod_eq_of_lt (lt_trans h1 (by norm_num))] at h2

/-! ## C64: the hits of a file -/

/-- C64 for complete files: the whole file is read without undefined behaviour, and the hits show, in order and once each,
the hit packets among the first `shownCount` packets of every chunk.  (Missing: `shownCount` is less than the number of
packets for half of all sizes, see `c64_false`.) -/
theorem c64_stream_partial (cs : List Chunk) (hc : ∀ c ∈ cs, c.WellFormed) (hl : ∀ c ∈ cs, c.NoLookAlike) :
    ∃ s, fileToHits (streamBytes cs) = .ok s ∧
      List.Forall₂ (fun d h => Shows d.2.1 d.1 d.2.2 h) (dated 0 (shownPackets cs)) s.hits ∧
      s.bytesRead = (streamBytes cs).length ∧ s.headers = cs.length := by
  obtain ⟨s, f, a1, -, a3, -, -, -, a7, -, a9, a10⟩ := fileToHits_stream cs hc hl []
  rw [List.append_nil] at a1
  refine ⟨s, by rw [a1, displayLoop_end _ _ a3], ?_, a9, a10⟩
  rw [a7]
  exact shows_dated 0 _ (by norm_num)

theorem shownPackets_all (cs : List Chunk) (h : ∀ c ∈ cs, c.packets.length < 4096 ∧ c.packets.length % 32 < 16) :
    shownPackets cs = chunkPackets cs := by
  induction cs with
  | nil => rfl
  | cons c cs ih =>
    have e1 : shownPackets (c :: cs) = shownPackets [c] ++ shownPackets cs := by simp [shownPackets]
    have e2 : chunkPackets (c :: cs) = chunkPackets [c] ++ chunkPackets cs := by simp [chunkPackets]
    rw [e1, e2, ih fun d hd => h d (by simp [hd])]
    have hs : shownCount c.packets.length = c.packets.length := by
      obtain ⟨h1, h2⟩ := h c (by simp)
      unfold shownCount
      rw [if_neg (by omega), if_pos h2]
    simp [shownPackets, chunkPackets, hs]

/-- C64 for files whose chunks have fewer than 4096 packets, and fewer than 16 modulo 32: every hit packet is shown. -/
theorem c64_complete_partial (cs : List Chunk) (hc : ∀ c ∈ cs, c.WellFormed) (hl : ∀ c ∈ cs, c.NoLookAlike)
    (hn : ∀ c ∈ cs, c.packets.length < 4096 ∧ c.packets.length % 32 < 16) :
    ∃ s, fileToHits (streamBytes cs) = .ok s ∧
      List.Forall₂ (fun d h => Shows d.2.1 d.1 d.2.2 h) (dated 0 (chunkPackets cs)) s.hits := by
  obtain ⟨s, h1, h2, -⟩ := c64_stream_partial cs hc hl
  rw [shownPackets_all cs hn] at h2
  exact ⟨s, h1, h2⟩

theorem dated_hits (t : Nat) (ps : List (Int × U64)) : (dated t ps).length = ps.countP fun p => IsHitPacket p.2 := by
  induction ps generalizing t with
  | nil => rfl
  | cons p ps ih =>
    obtain ⟨chip, w⟩ := p
    unfold dated
    split_ifs with h1 h2
    · rw [List.length_cons, ih, List.countP_cons_of_pos (by simpa using h1)]
    · rw [ih, List.countP_cons_of_neg (by simpa using h1)]
    · rw [ih, List.countP_cons_of_neg (by simpa using h1)]

/-- How many hits are shown of a chunk of hit packets. -/
theorem c64_count (c : Chunk) (hc : c.WellFormed) (hl : c.NoLookAlike) (hh : ∀ w ∈ c.packets, IsHitPacket w) :
    ∃ s, fileToHits (streamBytes [c]) = .ok s ∧ s.hits.length = shownCount c.packets.length := by
  obtain ⟨s, h1, h2, -⟩ := c64_stream_partial [c] (by simpa using hc) (by simpa using hl)
  refine ⟨s, h1, ?_⟩
  rw [← h2.length_eq, dated_hits, List.countP_eq_length.mpr]
  · simp only [shownPackets, List.flatMap_cons, List.flatMap_nil, List.append_nil, List.length_map, List.length_take]
    unfold shownCount
    split_ifs <;> omega
  · intro p hp
    simp only [shownPackets, List.flatMap_cons, List.flatMap_nil, List.append_nil, List.mem_map] at hp
    obtain ⟨w, hw, rfl⟩ := hp
    simpa using hh w (List.mem_of_mem_take hw)

/-- A chunk of `n` hit packets on chip 0. -/
def hitChunk (n : Nat) : Chunk :=
  ⟨BitVec.ofNat 64 (0x585054 + 8 * n * 2 ^ 48), List.replicate n 0xB000000000000000#64⟩

theorem hitChunk_ok (n : Nat) (h : n < 8192) : (hitChunk n).WellFormed ∧ (hitChunk n).NoLookAlike ∧
    ∀ w ∈ (hitChunk n).packets, IsHitPacket w := by
  refine ⟨⟨?_, ?_⟩, ?_, ?_⟩
  · unfold StartsTPX field hitChunk
    rw [BitVec.toNat_ofNat]
    simp only [Nat.reducePow]
    omega
  · unfold field hitChunk
    rw [BitVec.toNat_ofNat, List.length_replicate]
    simp only [Nat.reducePow]
    omega
  · intro w hw
    rw [List.eq_of_mem_replicate hw]
    decide
  · intro w hw
    rw [List.eq_of_mem_replicate hw]
    decide

/-- C64 fails: a chunk of 16 to 31 hits shows nothing, 4095 hits show 4063, and 4096 or more hits show nothing. -/
theorem c64_false :
    (∀ n, 16 ≤ n → n < 32 → ∃ s, fileToHits (streamBytes [hitChunk n]) = .ok s ∧ s.hits = []) ∧
    (∃ s, fileToHits (streamBytes [hitChunk 4095]) = .ok s ∧ s.hits.length = 4063) ∧
    (∀ n, 4096 ≤ n → n < 8192 → ∃ s, fileToHits (streamBytes [hitChunk n]) = .ok s ∧ s.hits = []) := by
  have key : ∀ n, n < 8192 → ∃ s, fileToHits (streamBytes [hitChunk n]) = .ok s ∧ s.hits.length = shownCount n := by
    intro n hn
    obtain ⟨a, b, c⟩ := hitChunk_ok n hn
    have := c64_count (hitChunk n) a b c
    rwa [show (hitChunk n).packets.length = n from List.length_replicate] at this
  refine ⟨fun n h1 h2 => ?_, ?_, fun n h1 h2 => ?_⟩
  · obtain ⟨s, e1, e2⟩ := key n (by omega)
    refine ⟨s, e1, List.eq_nil_of_length_eq_zero ?_⟩
    rw [e2]
    unfold shownCount
    split_ifs <;> omega
  · exact key 4095 (by omega)
  · obtain ⟨s, e1, e2⟩ := key n h2
    refine ⟨s, e1, List.eq_nil_of_length_eq_zero ?_⟩
    rw [e2]
    unfold shownCount
    rw [if_pos h1]

theorem lastData_append (d : CharBuf) (ws : List U64) (w : U64) : lastData d (ws ++ [w]) = (bytesOf w).map some := by
  induction ws generalizing d with
  | nil => rfl
  | cons v ws ih => exact ih _

/-- A truncated file: the last packet of the file is shown again for every one that is missing. -/
theorem c64_truncated (cs : List Chunk) (hc : ∀ c ∈ cs, c.WellFormed) (hl : ∀ c ∈ cs, c.NoLookAlike) (header : U64)
    (ws : List U64) (w : U64) (n : Nat) (h1 : StartsTPX header) (h2 : field header 48 16 = 8 * n)
    (h3 : ws.length + 1 ≤ shownCount n) :
    ∃ s, fileToHits (streamBytes cs ++ (header :: ws ++ [w]).flatMap bytesOf) = .ok s ∧
      List.Forall₂ (fun d h => Shows d.2.1 d.1 d.2.2 h) (dated 0 (shownPackets cs ++
        (ws ++ List.replicate (shownCount n - ws.length) w).map fun w => (headerChipId header, w))) s.hits := by
  obtain ⟨s, f, a1, a2, a3, a4, a5, a6, a7, -, -, -⟩ := fileToHits_stream cs hc hl ((header :: ws ++ [w]).flatMap bytesOf)
  rw [a1]
  have hr : (header :: ws ++ [w]).flatMap bytesOf = bytesOf header ++ (ws ++ [w]).flatMap bytesOf := by
    rw [List.cons_append, List.flatMap_cons]
  have hf : f ≠ 0 := by rintro rfl; omega
  obtain ⟨f, rfl⟩ := Nat.exists_eq_succ_of_ne_zero hf
  obtain ⟨s1, e1, e2, e3, e4, e5, e6, e7⟩ := displayPackets_full (headerChipId header) (ws ++ [w]) []
    { s with inbytes := (bytesOf header).map some, rest := (ws ++ [w]).flatMap bytesOf,
             bytesRead := s.bytesRead + 8, headers := s.headers + 1 } (by simp) a5
  rw [lastData_append] at e5
  obtain ⟨s2, f1, f2, f3, f4, f5, f6, f7⟩ := displayPackets_stale (headerChipId header) w (shownCount n - (ws.length + 1)) s1 e3 e5
  refine ⟨s2, ?_, ?_⟩
  · rw [Nat.succ_eq_add_one, displayLoop_header f header _ s (by rw [a3, hr]) a4 h1 n h2]
    have hk : shownCount n = (ws ++ [w]).length + (shownCount n - (ws.length + 1)) := by simp; omega
    rw [hk, e1, f1]
    simp only [Res.bind]
    exact displayLoop_end _ _ f3
  · have he : Effect s s2 ((ws ++ List.replicate (shownCount n - ws.length) w).map fun w => (headerChipId header, w)) := by
      have : (ws ++ List.replicate (shownCount n - ws.length) w).map (fun w => (headerChipId header, w)) =
          (ws ++ [w]).map (fun w => (headerChipId header, w)) ++
            List.replicate (shownCount n - (ws.length + 1)) (headerChipId header, w) := by
        have hk : shownCount n - ws.length = (shownCount n - (ws.length + 1)) + 1 := by omega
        rw [hk, List.replicate_succ]
        simp
      rw [this]
      exact Effect.trans ⟨e2.tdc, e2.hits, e2.tofs⟩ f2
    rw [he.hits, a7, a6, ← List.map_append, ← dated_append]
    exact shows_dated 0 _ (by norm_num)

/-- C64 fails for truncated files: one hit is shown fifteen times. -/
theorem c64_false_truncated : ∃ s, fileToHits ([(hitChunk 15).header, 0xB000000000000000#64].flatMap bytesOf) = .ok s ∧
    s.hits.length = 15 := by
  obtain ⟨s, h1, h2⟩ := c64_truncated [] (by simp) (by simp) (hitChunk 15).header [] 0xB000000000000000#64 15
    (hitChunk_ok 15 (by omega)).1.1 (by have := (hitChunk_ok 15 (by omega)).1.2; exact this) (by decide)
  refine ⟨s, h1, ?_⟩
  rw [← h2.length_eq, dated_hits]
  decide

/-- C64 fails for a header at the end of the file: if no packet was read before, an uninitialised array is used. -/
theorem c64_false_undefined (header : U64) (n : Nat) (h1 : StartsTPX header) (h2 : field header 48 16 = 8 * n)
    (h3 : 1 ≤ shownCount n) : fileToHits (bytesOf header) = .ub .indeterminate := by
  unfold fileToHits
  rw [displayLoop_header _ header [] _ (by simp) (by simp) h1 n h2]
  obtain ⟨k, hk⟩ := Nat.exists_eq_add_of_le' h3
  rw [hk, displayPackets]
  rfl

/-- A file to which the theorems apply, with a trigger and two hits on chip 1. -/
def sampleChunk : Chunk :=
  ⟨0x0018000100585054#64, [0x6F00000000064000#64, 0xB123400000000005#64, 0xB5678C0000000007#64]⟩

example : sampleChunk.WellFormed ∧ sampleChunk.NoLookAlike ∧ sampleChunk.packets.length < 4096 ∧
    sampleChunk.packets.length % 32 < 16 := by
  refine ⟨by decide, ?_, by decide, by decide⟩
  intro w hw
  simp only [sampleChunk, List.mem_cons, List.not_mem_nil, or_false] at hw
  rcases hw with rfl | rfl | rfl <;> decide

example : dated 0 (chunkPackets [sampleChunk]) =
    [(100, 1, 0xB123400000000005#64), (100, 1, 0xB5678C0000000007#64)] := by decide

/-- Hypotheses of `c64_truncated` and `c64_false_undefined`. -/
example : StartsTPX 0x0018000100585054#64 ∧ field 0x0018000100585054#64 48 16 = 8 * 3 ∧ 2 + 1 ≤ shownCount 3 := by decide

/-! ## C65: positions in the picture -/

theorem displayHit_xy (chip : Int) (w tdc : U64) :
    ((displayHit chip w tdc).x, (displayHit chip w tdc).y) = displayXY chip (pixelXY (decPixaddr w)) := rfl

/-- C65: a hit lies in the quadrant of its chip. -/
theorem c65_quadrant (chip : Int) (w tdc : U64) :
    InPicture chip (displayHit chip w tdc).x (displayHit chip w tdc).y := by
  unfold InPicture displayHit displayXY
  rw [pixelXY_eq]
  have := (decPixaddr w).isLt
  simp only
  split_ifs <;> simp only <;> omega

/-- C65: two pixels of the four chips are shown at the same place only if they are the same pixel of the same chip. -/
theorem c65_injective (c c' : Int) (w w' tdc tdc' : U64) (hc : 0 ≤ c ∧ c ≤ 3) (hc' : 0 ≤ c' ∧ c' ≤ 3)
    (hx : (displayHit c w tdc).x = (displayHit c' w' tdc').x) (hy : (displayHit c w tdc).y = (displayHit c' w' tdc').y) :
    c = c' ∧ chipX w = chipX w' ∧ chipY w = chipY w' := by
  have h1 := c65_quadrant c w tdc
  have h2 := c65_quadrant c' w' tdc'
  have s1 := (shows_displayHit c w tdc).2.2.2.2.2
  have s2 := (shows_displayHit c' w' tdc').2.2.2.2.2
  generalize displayHit c w tdc = a at *
  generalize displayHit c' w' tdc' = b at *
  unfold InPicture at h1 h2
  simp only at s1 s2
  split_ifs at h1 h2 s1 s2 <;> simp only [Prod.mk.injEq] at s1 s2 <;> omega

/-- C65: every place of the picture is that of a pixel. -/
theorem c65_surjective (x y : Int) (hx : 0 ≤ x ∧ x ≤ 511) (hy : 0 ≤ y ∧ y ≤ 511) (tdc : U64) :
    ∃ chip w, 0 ≤ chip ∧ chip ≤ 3 ∧ (displayHit chip w tdc).x = x ∧ (displayHit chip w tdc).y = y := by
  have key : ∀ a b : Nat, a < 256 → b < 256 → ∃ w : U64, chipX w = a ∧ chipY w = b := by
    intro a b ha hb
    refine ⟨BitVec.ofNat 64 (a / 2 * 2 ^ 53 + b / 4 * 2 ^ 47 + a % 2 * 2 ^ 46 + b % 4 * 2 ^ 44), ?_⟩
    unfold chipX chipY field
    rw [BitVec.toNat_ofNat]
    simp only [Nat.reducePow]
    constructor <;> omega
  have pick : ∃ chip : Int, ∃ a b : Nat, 0 ≤ chip ∧ chip ≤ 3 ∧ a < 256 ∧ b < 256 ∧
      (x, y) = if chip = 0 then (256 + (a : Int), (b : Int)) else if chip = 1 then (511 - (a : Int), 511 - (b : Int))
        else if chip = 2 then (255 - (a : Int), 511 - (b : Int)) else ((a : Int), (b : Int)) := by
    by_cases h1 : x < 256
    · by_cases h2 : y < 256
      · exact ⟨3, x.toNat, y.toNat, by omega, by omega, by omega, by omega, by
          rw [if_neg (by omega), if_neg (by omega), if_neg (by omega), Prod.mk.injEq]; omega⟩
      · exact ⟨2, (255 - x).toNat, (511 - y).toNat, by omega, by omega, by omega, by omega, by
          rw [if_neg (by omega), if_neg (by omega), if_pos rfl, Prod.mk.injEq]; omega⟩
    · by_cases h2 : y < 256
      · exact ⟨0, (x - 256).toNat, y.toNat, by omega, by omega, by omega, by omega, by
          rw [if_pos rfl, Prod.mk.injEq]; omega⟩
      · exact ⟨1, (511 - x).toNat, (511 - y).toNat, by omega, by omega, by omega, by omega, by
          rw [if_neg (by omega), if_pos rfl, Prod.mk.injEq]; omega⟩
  obtain ⟨chip, a, b, h0, h3, ha, hb, he⟩ := pick
  obtain ⟨w, hw1, hw2⟩ := key a b ha hb
  have s := (shows_displayHit chip w tdc).2.2.2.2.2
  simp only [hw1, hw2] at s
  rw [← he, Prod.mk.injEq] at s
  exact ⟨chip, w, h0, h3, s.1, s.2⟩

/-- C65: the picture is the detector of the batch program without the gap of four pixels. -/
theorem c65_gap (chip : Int) (w tdc tdc' gdc : U64) :
    (displayHit chip w tdc).x = (hitGdc w tdc' gdc chip).x - (if 260 ≤ (hitGdc w tdc' gdc chip).x then 4 else 0) ∧
    (displayHit chip w tdc).y = (hitGdc w tdc' gdc chip).y - (if 260 ≤ (hitGdc w tdc' gdc chip).y then 4 else 0) := by
  have h1 : (hitGdc w tdc' gdc chip).x = (layoutXY chip (pixelXY (decPixaddr w))).1 := rfl
  have h2 : (hitGdc w tdc' gdc chip).y = (layoutXY chip (pixelXY (decPixaddr w))).2 := rfl
  rw [h1, h2]
  unfold displayHit displayXY layoutXY
  rw [pixelXY_eq]
  have := (decPixaddr w).isLt
  simp only
  constructor <;> split_ifs <;> simp only <;> omega

/-! ## C66: the time-of-flight histogram -/

/-- What the histogram counts, for all complete files: dated hit packets on a part of their *own chip*; every index is
inside the array.  (Missing: the part is meant as one of the picture, see `c66_false`.) -/
theorem c66_counts_partial (cs : List Chunk) (hc : ∀ c ∈ cs, c.WellFormed) (hl : ∀ c ∈ cs, c.NoLookAlike) :
    ∃ s, fileToHits (streamBytes cs) = .ok s ∧ s.tofs = (dated 0 (shownPackets cs)).flatMap countedAt ∧
      ∀ i ∈ s.tofs, 0 ≤ i ∧ i < 170000 := by
  obtain ⟨s, f, a1, -, a3, -, -, -, -, a8, -, -⟩ := fileToHits_stream cs hc hl []
  rw [List.append_nil] at a1
  refine ⟨s, by rw [a1, displayLoop_end _ _ a3], a8, ?_⟩
  intro i hi
  rw [a8, List.mem_flatMap] at hi
  obtain ⟨d, -, hd⟩ := hi
  unfold countedAt at hd
  split_ifs at hd with hcond
  · rw [List.mem_singleton] at hd
    omega
  · simp at hd

/-- C66 fails: a hit at (300, 200) of the picture, inside the region, is not counted; one at (507, 200), outside, is. -/
theorem c66_false :
    (∃ s, fileToHits (streamBytes [⟨0x0008000000585054#64, [0xB2D9000000000004#64]⟩]) = .ok s ∧
      s.hits.map (fun h => (h.x, h.y)) = [(300, 200)] ∧ s.tofs = []) ∧
    (∃ s, fileToHits (streamBytes [⟨0x0008000000585054#64, [0xBFB9400000000004#64]⟩]) = .ok s ∧
      s.hits.map (fun h => (h.x, h.y)) = [(507, 200)] ∧ s.tofs = [16384]) := by
  have key : ∀ w : U64, ¬ StartsTPX w → ∃ s, fileToHits (streamBytes [⟨0x0008000000585054#64, [w]⟩]) = .ok s ∧
      s.hits = (dated 0 [((0 : Int), w)]).map (fun d => displayHit d.2.1 d.2.2 (BitVec.ofNat 64 d.1)) ∧
      s.tofs = (dated 0 [((0 : Int), w)]).flatMap countedAt := by
    intro w hw
    obtain ⟨s, f, a1, -, a3, -, -, -, a7, a8, -, -⟩ := fileToHits_stream [⟨0x0008000000585054#64, [w]⟩]
      (by simp [Chunk.WellFormed]; decide) (by simpa [Chunk.NoLookAlike] using hw) []
    rw [List.append_nil] at a1
    have hs : shownPackets [⟨0x0008000000585054#64, [w]⟩] = [(0, w)] := by
      simp [shownPackets, shownCount]; decide
    rw [hs] at a7 a8
    exact ⟨s, by rw [a1, displayLoop_end _ _ a3], a7, a8⟩
  constructor
  · obtain ⟨s, h1, h2, h3⟩ := key 0xB2D9000000000004#64 (by decide)
    exact ⟨s, h1, by rw [h2]; decide, by rw [h3]; decide⟩
  · obtain ⟨s, h1, h2, h3⟩ := key 0xBFB9400000000004#64 (by decide)
    exact ⟨s, h1, by rw [h2]; decide, by rw [h3]; decide⟩

end Verif.Props
