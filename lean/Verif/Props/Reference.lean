import Verif.Model.Reference
import Verif.Spec.Reference
import Verif.Props.Hit
import Verif.Props.LegacyStream

/-! # Agreement with the manufacturer's converter (C80) -/

namespace Verif.Props

open Verif Verif.Spec

theorem refPixel_eq (w : U64) : refPixel w = pixelXY (decPixaddr w) := by
  have h1 : ((w &&& 0x0FE0000000000000#64) >>> 52).toNat = w.toNat / 2 ^ 53 % 2 ^ 7 * 2 := by
    have := and_mask w.toNat 7 53
    norm_num at this
    simp only [BitVec.toNat_and, BitVec.toNat_ushiftRight, BitVec.reduceToNat, Nat.shiftRight_eq_div_pow, this]
    omega
  have h2 : ((w &&& 0x001F800000000000#64) >>> 45).toNat = w.toNat / 2 ^ 47 % 2 ^ 6 * 4 := by
    have := and_mask w.toNat 6 47
    norm_num at this
    simp only [BitVec.toNat_and, BitVec.toNat_ushiftRight, BitVec.reduceToNat, Nat.shiftRight_eq_div_pow, this]
    omega
  have h3 : ((w &&& 0x0000700000000000#64) >>> 44).toNat = w.toNat / 2 ^ 44 % 2 ^ 3 := by
    have := and_mask w.toNat 3 44
    norm_num at this
    simp only [BitVec.toNat_and, BitVec.toNat_ushiftRight, BitVec.reduceToNat, Nat.shiftRight_eq_div_pow, this]
    omega
  have h4 : (((w &&& 0x0000700000000000#64) >>> 44) &&& 3#64).toNat = w.toNat / 2 ^ 44 % 2 ^ 2 := by
    rw [BitVec.toNat_and, h3, show (3#64).toNat = 3 from rfl, and_0x3]; omega
  rw [pixelXY_eq, decPixaddr_toNat]
  unfold refPixel
  simp only [h1, h2, h3, h4]
  rw [Prod.mk.injEq]
  constructor
  · push_cast; omega
  · push_cast; omega

theorem refLayout_eq (chip : Int) (p : Int × Int) : refLayout chip p = layoutXY chip p := rfl

theorem refCtoa_eq (w : U64) : refCtoa w = 16 * field w 30 14 + (15 - field w 16 4) := by
  have h1 : (((w >>> 30) &&& 0x3FFF#64).setWidth 32).toNat = field w 30 14 := by
    unfold field; bits_to_nat; omega
  have h2 : (((w >>> 16) &&& 0xF#64).setWidth 32).toNat = field w 16 4 := by
    unfold field; bits_to_nat; omega
  have b1 : field w 30 14 < 2 ^ 14 := Nat.mod_lt _ (by norm_num)
  have b2 : field w 16 4 < 2 ^ 4 := Nat.mod_lt _ (by norm_num)
  unfold refCtoa
  simp only
  generalize ((w >>> 30) &&& 0x3FFF#64).setWidth 32 = a at *
  generalize ((w >>> 16) &&& 0xF#64).setWidth 32 = b at *
  have e1 : (a <<< 4).toNat = 16 * field w 30 14 := by
    rw [BitVec.toNat_shiftLeft, h1, Nat.shiftLeft_eq]; omega
  have e2 : (~~~ b &&& 0xF#32).toNat = 15 - field w 16 4 := by
    rw [BitVec.toNat_and, BitVec.toNat_not, h2, show (0xF#32).toNat = 15 from rfl, and_0xF]; omega
  rw [BitVec.toNat_or, or_eq_add _ _ 4 (by rw [e1]; omega) (by rw [e2]; omega), e1, e2]

theorem F64_16 : F64.ofRat 16 = .fin 16 := by
  have := F64.ofRat_int (n := 16) (by norm_num); exact_mod_cast this

theorem F64_25_16 : F64.div (.fin 25) (.fin 16) = .fin (25 / 16) := by
  simp only [F64.div]
  rw [if_neg (by norm_num), F64.ofRat_fin]
  · rw [rndQ_of_grid 25 (-4) (by norm_num) (by norm_num) (by norm_num)]
  · rw [abs_of_pos (by norm_num)]
    calc (25 / 16 : ℚ) ≤ 2 ^ (1 : ℤ) := by norm_num
      _ ≤ 2 ^ (1000 : ℤ) := zpow_le_zpow_right₀ (by norm_num) (by norm_num)

/-- Sixteenths below 2^53 are exact. -/
theorem ofRat_sixteenth (m : ℤ) (h0 : 0 ≤ m) (hm : m < 2 ^ 53) : F64.ofRat ((m : ℚ) / 16) = .fin ((m : ℚ) / 16) := by
  rw [F64.ofRat_fin]
  · rw [rndQ_of_grid m (-4) (by norm_num; ring) (by norm_num) (by rw [abs_of_nonneg h0]; omega)]
  · have h1 : (0 : ℚ) ≤ m := by exact_mod_cast h0
    have h2 : (m : ℚ) ≤ 2 ^ 53 := by exact_mod_cast hm.le
    rw [abs_of_nonneg (by positivity)]
    calc (m : ℚ) / 16 ≤ m := by linarith
      _ ≤ 2 ^ (53 : ℤ) := by exact_mod_cast h2
      _ ≤ 2 ^ (1000 : ℤ) := zpow_le_zpow_right₀ (by norm_num) (by norm_num)

theorem refTimeNs_eq (w : U64) : refTimeNs w = .fin (fineArrival w) := by
  have hs : ((w &&& 0xFFFF#64).setWidth 16).toNat = field w 0 16 := by
    unfold field; bits_to_nat; omega
  have b0 : field w 0 16 < 2 ^ 16 := Nat.mod_lt _ (by norm_num)
  have b1 : field w 30 14 < 2 ^ 14 := Nat.mod_lt _ (by norm_num)
  have b2 : field w 16 4 < 2 ^ 4 := Nat.mod_lt _ (by norm_num)
  unfold refTimeNs
  simp only
  rw [hs, refCtoa_eq, F64_ns_exact _ (by omega) (by omega), F64_25, F64_16, F64_25_16]
  have h16384 : F64.ofRat 16384 = .fin 16384 := by
    have := F64.ofRat_int (n := 16384) (by norm_num); exact_mod_cast this
  have e1 : F64.mul (.fin ((25 * (field w 0 16 : ℤ) : ℤ) : ℚ)) (F64.ofRat 16384) =
      .fin ((25 * 16384 * (field w 0 16 : ℤ) : ℤ) : ℚ) := by
    rw [h16384]
    simp only [F64.mul]
    have : ((25 * (field w 0 16 : ℤ) : ℤ) : ℚ) * 16384 = ((25 * 16384 * (field w 0 16 : ℤ) : ℤ) : ℚ) := by
      push_cast; ring
    rw [this, F64.ofRat_int (by rw [abs_of_nonneg (by omega)]; omega)]
  have e2 : F64.mul (F64.ofInt (16 * field w 30 14 + (15 - field w 16 4) : ℕ)) (.fin (25 / 16)) =
      .fin (((25 * (16 * field w 30 14 + (15 - field w 16 4) : ℕ) : ℤ) : ℚ) / 16) := by
    rw [F64.ofInt_exact (by rw [abs_of_nonneg (by omega)]; omega)]
    simp only [F64.mul]
    rw [← ofRat_sixteenth _ (by omega) (by omega)]
    congr 1
    push_cast; ring
  rw [e1, e2]
  simp only [F64.add]
  have : ((25 * 16384 * (field w 0 16 : ℤ) : ℤ) : ℚ) +
      ((25 * (16 * field w 30 14 + (15 - field w 16 4) : ℕ) : ℤ) : ℚ) / 16 =
      ((16 * 25 * 16384 * (field w 0 16 : ℤ) + 25 * (16 * field w 30 14 + (15 - field w 16 4) : ℕ) : ℤ) : ℚ) / 16 := by
    push_cast; ring
  rw [this, ofRat_sixteenth _ (by omega) (by omega)]
  congr 1
  unfold fineArrival clock30
  have hsub : ((15 - field w 16 4 : ℕ) : ℚ) = 15 - (field w 16 4 : ℚ) := by
    rw [Nat.cast_sub (by omega)]; norm_num
  push_cast
  rw [hsub]
  ring

theorem refTotNs_eq (w : U64) : refTotNs w = F64.mul (F64.ofInt (decTot w)) (F64.ofRat 25) := by
  unfold refTotNs
  have : ((w >>> 20) &&& 0x3FF#64).toNat = decTot w := by
    rw [decTot_eq]; bits_to_nat
  rw [this]

/-- C80 for one hit: position, duration and, up to the fine part, the arrival time of the manufacturer's program are those of
both constructors of `Hit`, whatever the timestamps. -/
theorem c80_hit (w tdc gdc : U64) (chip : Int) : ∀ h ∈ [hitGdc w tdc gdc chip, hitTdc w tdc chip],
    refHit chip w = .hit h.x h.y (F64.div (.fin (fineArrival w)) (F64.ofRat 1000000000)) h.totNs ∧
    h.spidertime.toNat % 2 ^ 30 = clock30 w ∧
    fineArrival w = 25 * ((h.spidertime.toNat % 2 ^ 30 : ℕ) : ℚ) + 25 / 16 * (15 - h.ftoa) := by
  have hg : (hitGdc w tdc gdc chip).spidertime.toNat % 2 ^ 30 = clock30 w := by
    rw [hitGdc_spidertime]
    have hr := rawSpider_lt w
    have hc : clock30 w = (rawSpider w).toNat := by
      rw [rawSpider_toNat]; unfold clock30 field; omega
    have he := extendSpider_toNat (rawSpider w) gdc hr
    rw [hc, fixSpider_eq]
    have hE := (extendSpider (rawSpider w) gdc).isLt
    generalize (rawSpider w).toNat = r at *
    generalize extendSpider (rawSpider w) gdc = E at *
    generalize (if r < gdc.toNat % 2 ^ 30 then gdc.toNat / 2 ^ 30 % 2 ^ 18 + 1 else gdc.toNat / 2 ^ 30 % 2 ^ 18) = m at *
    simp only [Nat.reducePow] at *
    split_ifs with hd
    · rw [BitVec.toNat_sub]; bits_to_nat; omega
    · omega
  have ht : (hitTdc w tdc chip).spidertime.toNat % 2 ^ 30 = clock30 w := by
    rw [c06_arrival]
    have : clock30 w < 2 ^ 30 := by
      have b0 : field w 0 16 < 2 ^ 16 := Nat.mod_lt _ (by norm_num)
      have b1 : field w 30 14 < 2 ^ 14 := Nat.mod_lt _ (by norm_num)
      unfold clock30; omega
    split_ifs <;> omega
  have hf : decFtoa w = field w 16 4 := by rw [decFtoa_eq]; rfl
  intro h hh
  simp only [List.mem_cons, List.not_mem_nil, or_false] at hh
  have e : refHit chip w = .hit (layoutXY chip (pixelXY (decPixaddr w))).1 (layoutXY chip (pixelXY (decPixaddr w))).2
      (F64.div (.fin (fineArrival w)) (F64.ofRat 1000000000)) (F64.mul (F64.ofInt (decTot w)) (F64.ofRat 25)) := by
    unfold refHit
    simp only
    rw [refTimeNs_eq, refTotNs_eq, refPixel_eq, refLayout_eq]
  rcases hh with rfl | rfl
  · refine ⟨e, hg, ?_⟩
    rw [hg]
    unfold fineArrival hitGdc
    simp [hf]
  · refine ⟨e, ht, ?_⟩
    rw [ht]
    unfold fineArrival hitTdc
    simp [hf]

/-! ### Whole files -/

/-- The packets of a file, one after another. -/
def refAll : List (Int × U64) → RefState → Res RefState
  | [], s => .ok s
  | p :: ps, s => (refPacket p.1 p.2 s).bind (refAll ps)

theorem refAll_append (ps qs : List (Int × U64)) (s : RefState) :
    refAll (ps ++ qs) s = (refAll ps s).bind (refAll qs) := by
  induction ps generalizing s with
  | nil => rfl
  | cons p ps ih =>
    simp only [List.cons_append, refAll]
    cases refPacket p.1 p.2 s with
    | ok t => exact ih t
    | throws e => rfl
    | ub u => rfl

theorem refPackets_complete (ws : List U64) (chip : Int) (qs rest : List U64) (k : Nat) (s : RefState)
    (h : ws.drop k = qs ++ rest) :
    refPackets ws chip qs.length k s = refAll (qs.map fun w => (chip, w)) s := by
  induction qs generalizing k s with
  | nil => rfl
  | cons q qs ih =>
    have hk : ws[k]? = some q := by
      have := congrArg List.head? h
      rwa [List.head?_drop] at this
    have hd : ws.drop (k + 1) = qs ++ rest := by
      have := congrArg List.tail h
      rwa [List.tail_drop] at this
    simp only [List.length_cons, refPackets, hk, List.map_cons, refAll]
    cases refPacket chip q s with
    | ok t => exact ih (k + 1) t hd
    | throws e => rfl
    | ub u => rfl

theorem refPackets_short (ws : List U64) (chip : Int) (qs : List U64) (n k : Nat) (s : RefState)
    (h : ws.drop k = qs) (hn : qs.length < n) :
    refPackets ws chip n k s = (refAll (qs.map fun w => (chip, w)) s).bind fun _ => .ub .oobRead := by
  induction qs generalizing n k s with
  | nil =>
    have hk : ws[k]? = none := by
      have := congrArg List.head? h
      rwa [List.head?_drop] at this
    rcases n with _ | n
    · simp at hn
    · simp only [refPackets, hk, List.map_nil, refAll, Res.bind]
  | cons q qs ih =>
    have hk : ws[k]? = some q := by
      have := congrArg List.head? h
      rwa [List.head?_drop] at this
    have hd : ws.drop (k + 1) = qs := by
      have := congrArg List.tail h
      rwa [List.tail_drop] at this
    rcases n with _ | n
    · simp at hn
    · simp only [refPackets, hk, List.map_cons, refAll]
      cases refPacket chip q s with
      | ok t => exact ih n (k + 1) t hd (by simp at hn; omega)
      | throws e => rfl
      | ub u => rfl

theorem refLoop_stream (cs : List Chunk) (hcs : ∀ c ∈ cs, c.WellFormed) (ws tl : List U64) (fuel i : Nat) (s : RefState)
    (h : ws.drop i = streamWords cs ++ tl) :
    refLoop ws (cs.length + fuel) i s =
      (refAll (chunkPackets cs) s).bind (refLoop ws fuel (i + (streamWords cs).length)) := by
  induction cs generalizing i s with
  | nil => simp [refAll, Res.bind, chunkPackets, streamWords]
  | cons c cs ih =>
    have hc := hcs c (by simp)
    rw [streamWords_cons, List.cons_append, List.append_assoc] at h
    have hk : ws[i]? = some c.header := by
      have := congrArg List.head? h
      rwa [List.head?_drop] at this
    have hd : ws.drop (i + 1) = c.packets ++ (streamWords cs ++ tl) := by
      have := congrArg List.tail h
      rwa [List.tail_drop] at this
    have hd2 : ws.drop (i + c.packets.length + 1) = streamWords cs ++ tl := by
      rw [show i + c.packets.length + 1 = (i + 1) + c.packets.length by omega, ← List.drop_drop, hd, List.drop_left]
    have hn : headerPackets c.header = c.packets.length := by
      rw [headerPackets_field, hc.2, Nat.mul_div_cancel_left _ (by omega)]
    have hf : (c :: cs).length + fuel = (cs.length + fuel) + 1 := by simp only [List.length_cons]; omega
    rw [hf, refLoop, hk]
    simp only
    rw [if_pos ((isHeader_iff_starts _).mpr hc.1), hn, refPackets_complete ws _ c.packets _ _ s hd, headerChip_eq,
      chunkPackets_cons, refAll_append]
    cases refAll (c.packets.map fun w => (headerChipId c.header, w)) s with
    | ok t =>
      simp only [Res.bind]
      rw [ih (fun d hd => hcs d (by simp [hd])) _ _ hd2, streamWords_cons]
      have e : i + c.packets.length + 1 + (streamWords cs).length =
          i + (c.header :: (c.packets ++ streamWords cs)).length := by
        simp only [List.length_cons, List.length_append]; omega
      rw [e]
      rfl
    | throws e => rfl
    | ub u => rfl

/-- On a complete file the program goes through the packets of the blocks in order. -/
theorem refRun_stream (cs : List Chunk) (hcs : ∀ c ∈ cs, c.WellFormed) :
    refRun (streamBytes cs) = refAll (chunkPackets cs) RefState.init := by
  have hl : (streamBytes cs).length = 8 * (streamWords cs).length := streamBytes_length cs
  have hcl : cs.length ≤ (streamWords cs).length := by
    clear hcs hl
    induction cs with
    | nil => simp
    | cons c cs ih => rw [streamWords_cons]; simp only [List.length_cons, List.length_append]; omega
  unfold refRun
  rw [if_neg (by omega), wordsOf_streamBytes]
  obtain ⟨f, hf⟩ : ∃ f, (streamBytes cs).length / 8 + 1 = cs.length + (f + 1) := ⟨(streamWords cs).length - cs.length, by omega⟩
  rw [hf, refLoop_stream cs hcs _ [] _ _ _ (by simp)]
  cases refAll (chunkPackets cs) RefState.init with
  | ok t =>
    have : (streamWords cs)[0 + (streamWords cs).length]? = none := by simp
    simp only [Res.bind, refLoop, this]
  | throws e => rfl
  | ub u => rfl

theorem kind_eq (w : U64) : (w >>> 60).toNat = kind w := by
  have := w.isLt
  unfold kind field
  bits_to_nat
  omega

theorem sel_eq (w : U64) (k : Nat) (hk : k < 16) : ((w >>> 56) &&& 0xF#64 = BitVec.ofNat 64 k) ↔ field w 56 4 = k := by
  rw [← BitVec.toNat_inj]
  have : ((w >>> 56) &&& 0xF#64).toNat = field w 56 4 := by unfold field; bits_to_nat
  rw [this, BitVec.toNat_ofNat]
  omega

theorem hitBeforeHigh_cons (w : U64) (ws : List U64) :
    HitBeforeHigh (w :: ws) ↔ ¬ IsHighPacket w ∧ (IsHitPacket w ∨ HitBeforeHigh ws) := by
  constructor
  · intro h
    refine ⟨fun hw => ?_, ?_⟩
    · obtain ⟨v, hv, _⟩ := h [] w ws rfl hw
      simp at hv
    · by_cases hh : IsHitPacket w
      · exact .inl hh
      · refine .inr fun pre v post e hv => ?_
        obtain ⟨u, hu, hu2⟩ := h (w :: pre) v post (by rw [e]; rfl) hv
        rcases List.mem_cons.mp hu with rfl | hu
        · exact absurd hu2 hh
        · exact ⟨u, hu, hu2⟩
  · rintro ⟨h1, h2⟩ pre v post e hv
    rcases pre with _ | ⟨p, pre⟩
    · injection e with e1 e2
      subst e1
      exact absurd hv h1
    · injection e with e1 e2
      subst e1
      rcases h2 with h2 | h2
      · exact ⟨w, by simp, h2⟩
      · obtain ⟨u, hu, hu2⟩ := h2 pre v post e2 hv
        exact ⟨u, by simp [hu], hu2⟩

theorem refPacket_trigger (chip : Int) (w : U64) (s : RefState) (h : kind w = 6) :
    refPacket chip w s = .ok { s with tdcs := s.tdcs + 1, lines := s.lines ++ [.trigger (refTrigger w)] } := by
  unfold refPacket
  simp only
  rw [kind_eq, if_pos h]

theorem refPacket_hit (chip : Int) (w : U64) (s : RefState) (h : IsHitPacket w) :
    refPacket chip w s = .ok { s with spidr := some ((w &&& 0xFFFF#64).setWidth 16), lines := s.lines ++ [refHit chip w] } := by
  unfold IsHitPacket at h
  unfold refPacket
  simp only
  rw [kind_eq, if_neg (by omega), if_pos h]

theorem refPacket_low (chip : Int) (w : U64) (s : RefState) (h : kind w = 4) (hl : field w 56 4 = 4) :
    refPacket chip w s = .ok { s with lsb := (w >>> 16) &&& 0xFFFFFFFF#64 } := by
  unfold refPacket
  simp only
  rw [kind_eq, if_neg (by omega), if_neg (by omega), if_pos h, if_pos ((sel_eq w 4 (by omega)).mpr hl)]

theorem refPacket_high (chip : Int) (w : U64) (s : RefState) (h : IsHighPacket w) (hs : s.lsb.toNat < 2 ^ 32) :
    (s.spidr = none → refPacket chip w s = .ub .indeterminate) ∧
    (s.spidr ≠ none → ∃ m, refPacket chip w s = .ok { s with msb := m, lines := s.lines ++
      [.global (F64.mul (F64.ofInt ((field w 16 16 * 2 ^ 32 + s.lsb.toNat : ℕ) : ℤ)) (F64.ofRat (25 / 1000000000)))] }) := by
  have hm : (((((w >>> 16) &&& 0xFFFF#64) <<< 32) &&& 0xFFFF00000000#64) ||| s.lsb).toNat =
      field w 16 16 * 2 ^ 32 + s.lsb.toNat := by
    rw [BitVec.toNat_or, or_eq_add _ _ 32 _ hs]
    · unfold field; bits_to_nat; omega
    · bits_to_nat; omega
  obtain ⟨h1, h2⟩ := h
  unfold refPacket
  simp only
  rw [kind_eq, if_neg (by omega), if_neg (by omega), if_pos h1, if_neg (fun e => by
    have := (sel_eq w 4 (by omega)).mp e; omega), if_pos ((sel_eq w 5 (by omega)).mpr h2), hm]
  constructor
  · intro e
    rw [e]
  · intro e
    cases hsp : s.spidr with
    | none => exact absurd hsp e
    | some t => exact ⟨_, rfl⟩

theorem refPacket_other (chip : Int) (w : U64) (s : RefState) (h1 : kind w ≠ 6) (h2 : ¬ IsHitPacket w)
    (h3 : ¬ (kind w = 4 ∧ field w 56 4 = 4)) (h4 : ¬ IsHighPacket w) : refPacket chip w s = .ok s := by
  unfold IsHitPacket at h2
  unfold refPacket
  simp only
  rw [kind_eq, if_neg h1, if_neg h2]
  by_cases h : kind w = 4
  · rw [if_pos h, if_neg (fun e => h3 ⟨h, (sel_eq w 4 (by omega)).mp e⟩),
      if_neg (fun e => h4 ⟨h, (sel_eq w 5 (by omega)).mp e⟩)]
  · rw [if_neg h]

/-- What the lines of a list of packets have to be. -/
structure LinesFrom (ps : List (Int × U64)) (low : Nat) (s s' : RefState) : Prop where
  hits : hitLines s'.lines = hitLines s.lines ++
    ((ps.filter fun p => IsHitPacket p.2).map fun p => (refHit p.1 p.2)).filterMap fun
      | .hit x y t u => some (x, y, t, u)
      | _ => none
  globals : globalLines s'.lines = globalLines s.lines ++
    (globalTimes low (ps.map Prod.snd)).map fun (g : ℕ) => F64.mul (F64.ofInt (g : ℤ)) (F64.ofRat (25 / 1000000000))
  triggers : triggerLines s'.lines = triggerLines s.lines + (ps.map Prod.snd).countP fun w => kind w = 6
  tdcs : s'.tdcs = s.tdcs + (ps.map Prod.snd).countP fun w => kind w = 6

theorem refAll_spec (ps : List (Int × U64)) (s : RefState) (hs : s.lsb.toNat < 2 ^ 32) :
    ((s.spidr = none ∧ ¬ HitBeforeHigh (ps.map Prod.snd)) → refAll ps s = .ub .indeterminate) ∧
    ((s.spidr ≠ none ∨ HitBeforeHigh (ps.map Prod.snd)) → ∃ s', refAll ps s = .ok s' ∧ LinesFrom ps s.lsb.toNat s s') := by
  induction ps generalizing s with
  | nil =>
    refine ⟨fun h => absurd (fun pre w post e => by simp at e) h.2, fun _ => ⟨s, rfl, ?_, ?_, ?_, ?_⟩⟩ <;>
      simp [globalTimes]
  | cons p ps ih =>
    rw [List.map_cons, hitBeforeHigh_cons]
    by_cases h6 : kind p.2 = 6
    · have hh : ¬ IsHitPacket p.2 := by unfold IsHitPacket; omega
      have hg : ¬ IsHighPacket p.2 := by unfold IsHighPacket; omega
      obtain ⟨i1, i2⟩ := ih { s with tdcs := s.tdcs + 1, lines := s.lines ++ [.trigger (refTrigger p.2)] } hs
      simp only [refAll, refPacket_trigger _ _ _ h6, Res.bind]
      refine ⟨fun h => i1 ⟨h.1, fun h' => h.2 ⟨hg, .inr h'⟩⟩, fun h => ?_⟩
      obtain ⟨s', e, l⟩ := i2 (h.imp_right fun h => h.2.resolve_left hh)
      refine ⟨s', e, ?_, ?_, ?_, ?_⟩
      · rw [l.hits, List.filter_cons_of_neg (by simpa using hh)]
        simp [hitLines]
      · rw [l.globals, List.map_cons, globalTimes, if_neg (by omega), if_neg hg]
        simp [globalLines]
      · rw [l.triggers, List.map_cons, List.countP_cons_of_pos (by simpa using h6)]
        simp [triggerLines]; omega
      · rw [l.tdcs, List.map_cons, List.countP_cons_of_pos (by simpa using h6)]
        simp only; omega
    · by_cases hh : IsHitPacket p.2
      · have hg : ¬ IsHighPacket p.2 := by unfold IsHighPacket; unfold IsHitPacket at hh; omega
        obtain ⟨i1, i2⟩ := ih { s with spidr := some ((p.2 &&& 0xFFFF#64).setWidth 16),
                                       lines := s.lines ++ [refHit p.1 p.2] } hs
        simp only [refAll, refPacket_hit _ _ _ hh, Res.bind]
        refine ⟨fun h => absurd ⟨hg, .inl hh⟩ h.2, fun h => ?_⟩
        obtain ⟨s', e, l⟩ := i2 (.inl (by simp))
        refine ⟨s', e, ?_, ?_, ?_, ?_⟩
        · rw [l.hits, List.filter_cons_of_pos (by simpa using hh)]
          simp [hitLines, refHit]
        · unfold IsHitPacket at hh
          rw [l.globals, List.map_cons, globalTimes, if_neg (by omega), if_neg hg]
          simp [globalLines, refHit]
        · rw [l.triggers, List.map_cons, List.countP_cons_of_neg (by simpa using h6)]
          simp [triggerLines, refHit]
        · rw [l.tdcs, List.map_cons, List.countP_cons_of_neg (by simpa using h6)]
      · by_cases hl : kind p.2 = 4 ∧ field p.2 56 4 = 4
        · have hg : ¬ IsHighPacket p.2 := by unfold IsHighPacket; omega
          have hw : ((p.2 >>> 16) &&& 0xFFFFFFFF#64).toNat = field p.2 16 32 := by unfold field; bits_to_nat
          obtain ⟨i1, i2⟩ := ih { s with lsb := (p.2 >>> 16) &&& 0xFFFFFFFF#64 } (by
            simp only [hw]; exact Nat.mod_lt _ (by norm_num))
          simp only [refAll, refPacket_low _ _ _ hl.1 hl.2, Res.bind]
          refine ⟨fun h => i1 ⟨h.1, fun h' => h.2 ⟨hg, .inr h'⟩⟩, fun h => ?_⟩
          obtain ⟨s', e, l⟩ := i2 (h.imp_right fun h => h.2.resolve_left hh)
          refine ⟨s', e, ?_, ?_, ?_, ?_⟩
          · rw [l.hits, List.filter_cons_of_neg (by simpa using hh)]
          · rw [l.globals, List.map_cons, globalTimes, if_pos hl]
            simp only [hw]
          · rw [l.triggers, List.map_cons, List.countP_cons_of_neg (by simpa using h6)]
          · rw [l.tdcs, List.map_cons, List.countP_cons_of_neg (by simpa using h6)]
        · by_cases hg : IsHighPacket p.2
          · obtain ⟨r1, r2⟩ := refPacket_high p.1 p.2 s hg hs
            refine ⟨fun h => by simp only [refAll, r1 h.1, Res.bind], fun h => ?_⟩
            have hsp : s.spidr ≠ none := h.resolve_right fun h => h.1 hg
            obtain ⟨m, r2⟩ := r2 hsp
            obtain ⟨_, i2⟩ := ih { s with msb := m, lines := s.lines ++ [.global (F64.mul
              (F64.ofInt ((field p.2 16 16 * 2 ^ 32 + s.lsb.toNat : ℕ) : ℤ)) (F64.ofRat (25 / 1000000000)))] } hs
            obtain ⟨s', e, l⟩ := i2 (.inl hsp)
            simp only [refAll, r2, Res.bind]
            refine ⟨s', e, ?_, ?_, ?_, ?_⟩
            · rw [l.hits, List.filter_cons_of_neg (by simpa using hh)]
              simp [hitLines]
            · rw [l.globals, List.map_cons, globalTimes, if_neg hl, if_pos hg]
              simp [globalLines]
            · rw [l.triggers, List.map_cons, List.countP_cons_of_neg (by simpa using h6)]
              simp [triggerLines]
            · rw [l.tdcs, List.map_cons, List.countP_cons_of_neg (by simpa using h6)]
          · obtain ⟨i1, i2⟩ := ih s hs
            simp only [refAll, refPacket_other _ _ _ h6 hh hl hg, Res.bind]
            refine ⟨fun h => i1 ⟨h.1, fun h' => h.2 ⟨hg, .inr h'⟩⟩, fun h => ?_⟩
            obtain ⟨s', e, l⟩ := i2 (h.imp_right fun h => h.2.resolve_left hh)
            refine ⟨s', e, ?_, ?_, ?_, ?_⟩
            · rw [l.hits, List.filter_cons_of_neg (by simpa using hh)]
            · rw [l.globals, List.map_cons, globalTimes, if_neg hl, if_neg hg]
            · rw [l.triggers, List.map_cons, List.countP_cons_of_neg (by simpa using h6)]
            · rw [l.tdcs, List.map_cons, List.countP_cons_of_neg (by simpa using h6)]

/-- The numbers of a line of the manufacturer's program, from a hit of this library: position, seconds within the period of
the clock, duration. -/
def lineOfHit (h : Hit) : Int × Int × F64 × F64 :=
  (h.x, h.y, F64.div (.fin (25 * ((h.spidertime.toNat % 2 ^ 30 : ℕ) : ℚ) + 25 / 16 * (15 - h.ftoa))) (F64.ofRat 1000000000),
    h.totNs)

theorem lineOfHit_gdc (w tdc gdc : U64) (chip : Int) :
    refHit chip w = .hit (lineOfHit (hitGdc w tdc gdc chip)).1 (lineOfHit (hitGdc w tdc gdc chip)).2.1
      (lineOfHit (hitGdc w tdc gdc chip)).2.2.1 (lineOfHit (hitGdc w tdc gdc chip)).2.2.2 := by
  obtain ⟨h1, _, h3⟩ := c80_hit w tdc gdc chip (hitGdc w tdc gdc chip) (by simp)
  rw [h1, h3]
  rfl

theorem lineOfHit_tdc (w tdc : U64) (chip : Int) :
    refHit chip w = .hit (lineOfHit (hitTdc w tdc chip)).1 (lineOfHit (hitTdc w tdc chip)).2.1
      (lineOfHit (hitTdc w tdc chip)).2.2.1 (lineOfHit (hitTdc w tdc chip)).2.2.2 := by
  obtain ⟨h1, _, h3⟩ := c80_hit w tdc 0 chip (hitTdc w tdc chip) (by simp)
  rw [h1, h3]
  rfl

theorem lineOfHit_any (w tdc gdc tdc' gdc' : U64) (chip : Int) :
    lineOfHit (hitGdc w tdc gdc chip) = lineOfHit (hitGdc w tdc' gdc' chip) ∧
    lineOfHit (hitTdc w tdc chip) = lineOfHit (hitGdc w tdc' gdc' chip) := by
  have h1 := lineOfHit_gdc w tdc gdc chip
  have h2 := lineOfHit_tdc w tdc chip
  rw [lineOfHit_gdc w tdc' gdc' chip] at h1 h2
  simp only [RefLine.hit.injEq] at h1 h2
  exact ⟨by ext1; exact h1.1.symm; ext1; exact h1.2.1.symm; ext1; exact h1.2.2.1.symm; exact h1.2.2.2.symm,
    by ext1; exact h2.1.symm; ext1; exact h2.2.1.symm; ext1; exact h2.2.2.1.symm; exact h2.2.2.2.symm⟩

/-- C80: on a complete file in which some hit comes before the first upper half of the global time, the manufacturer's program
ends, and writes one line for each hit packet in order, with the position, time and duration that this library decodes; the
global times; and one line for each packet of type 6. -/
theorem c80_file (cs : List Chunk) (hcs : ∀ c ∈ cs, c.WellFormed)
    (hb : HitBeforeHigh ((chunkPackets cs).map Prod.snd)) :
    ∃ s, refRun (streamBytes cs) = .ok s ∧
      (∀ tdc gdc, hitLines s.lines =
        ((chunkPackets cs).filter fun p => IsHitPacket p.2).map fun p => lineOfHit (hitGdc p.2 tdc gdc p.1)) ∧
      globalLines s.lines = (globalTimes 0 ((chunkPackets cs).map Prod.snd)).map
        (fun (g : ℕ) => F64.mul (F64.ofInt (g : ℤ)) (F64.ofRat (25 / 1000000000))) ∧
      triggerLines s.lines = ((chunkPackets cs).map Prod.snd).countP (fun w => kind w = 6) ∧
      s.tdcs = ((chunkPackets cs).map Prod.snd).countP (fun w => kind w = 6) := by
  rw [refRun_stream cs hcs]
  obtain ⟨s, e, l⟩ := (refAll_spec (chunkPackets cs) RefState.init (by decide)).2 (.inr hb)
  refine ⟨s, e, fun tdc gdc => ?_, ?_, ?_, ?_⟩
  · rw [l.hits]
    generalize (chunkPackets cs).filter (fun p => IsHitPacket p.2) = qs
    have h0 : hitLines RefState.init.lines = [] := rfl
    rw [h0, List.nil_append]
    induction qs with
    | nil => rfl
    | cons q qs ih =>
      rw [List.map_cons, List.map_cons, ← ih, lineOfHit_gdc q.2 tdc gdc q.1]
      rfl
  · rw [l.globals]; rfl
  · rw [l.triggers]; simp [RefState.init, triggerLines]
  · rw [l.tdcs]; simp [RefState.init]

/-- C80, exactly when the program is defined on complete files: otherwise `diff` is computed from a variable that has no value
yet (tpx3cam.cpp:177). -/
theorem c80_defined_iff (cs : List Chunk) (hcs : ∀ c ∈ cs, c.WellFormed) :
    ((∃ s, refRun (streamBytes cs) = .ok s) ↔ HitBeforeHigh ((chunkPackets cs).map Prod.snd)) ∧
    (¬ HitBeforeHigh ((chunkPackets cs).map Prod.snd) → refRun (streamBytes cs) = .ub .indeterminate) := by
  have h2 : ¬ HitBeforeHigh ((chunkPackets cs).map Prod.snd) → refRun (streamBytes cs) = .ub .indeterminate := fun h => by
    rw [refRun_stream cs hcs]
    exact (refAll_spec (chunkPackets cs) RefState.init (by decide)).1 ⟨rfl, h⟩
  refine ⟨⟨fun ⟨s, e⟩ => ?_, fun h => ?_⟩, h2⟩
  · by_contra h
    rw [h2 h] at e
    exact absurd e (by simp)
  · obtain ⟨s, e, _⟩ := c80_file cs hcs h
    exact ⟨s, e⟩

theorem pass_lines (m : Mode) (t : Times) (ps : List (Int × U64)) (tdc gdc : U64) :
    ((passM m t ps).map lineOfHit).Sublist
      ((ps.filter fun p => IsHitPacket p.2).map fun p => lineOfHit (hitGdc p.2 tdc gdc p.1)) := by
  induction ps generalizing t with
  | nil => cases m <;> exact List.Sublist.slnil
  | cons p ps ih =>
    cases m with
    | gdc =>
      have ih := ih (nextG p.2 t)
      simp only [passM, passG] at ih ⊢
      by_cases h : IsHitPacket p.2
      · rw [List.filter_cons_of_pos (by simpa using h), List.map_cons]
        by_cases h2 : IsHitPacket p.2 ∧ t.tdc ≠ 0 ∧ t.gdc ≠ 0
        · rw [if_pos h2, List.singleton_append, List.map_cons, (lineOfHit_any p.2 _ _ tdc gdc p.1).1]
          exact ih.cons_cons _
        · rw [if_neg h2, List.nil_append]
          exact ih.cons _
      · rw [List.filter_cons_of_neg (by simpa using h), if_neg (fun h2 => h h2.1), List.nil_append]
        exact ih
    | tdc =>
      have ih := ih (nextT p.2 t)
      simp only [passM, passT] at ih ⊢
      by_cases h : IsHitPacket p.2
      · rw [List.filter_cons_of_pos (by simpa using h), List.map_cons]
        by_cases h2 : IsHitPacket p.2 ∧ t.tdc ≠ 0
        · rw [if_pos h2, List.singleton_append, List.map_cons, (lineOfHit_any p.2 _ 0 tdc gdc p.1).2]
          exact ih.cons_cons _
        · rw [if_neg h2, List.nil_append]
          exact ih.cons _
      · rw [List.filter_cons_of_neg (by simpa using h), if_neg (fun h2 => h h2.1), List.nil_append]
        exact ih

theorem pass_lines_all (m : Mode) (t : Times) (ps : List (Int × U64)) (tdc gdc : U64)
    (hg : m = .gdc → t.gdc ≠ 0)
    (ht : ∀ i, i < ps.length → (timesM m t ((ps.take i).map Prod.snd)).tdc ≠ 0) :
    (passM m t ps).map lineOfHit =
      (ps.filter fun p => IsHitPacket p.2).map fun p => lineOfHit (hitGdc p.2 tdc gdc p.1) := by
  induction ps generalizing t with
  | nil => cases m <;> rfl
  | cons p ps ih =>
    have h0 := ht 0 (by simp)
    have h1 : ∀ i, i < ps.length → (timesM m (timesM m t [p.2]) ((ps.take i).map Prod.snd)).tdc ≠ 0 := fun i hi => by
      have := ht (i + 1) (by simp; omega)
      rw [List.take_succ_cons, List.map_cons] at this
      cases m <;> exact this
    cases m with
    | gdc =>
      have hg := hg rfl
      have h0 : t.tdc ≠ 0 := h0
      have hg' : (nextG p.2 t).gdc ≠ 0 := by
        unfold nextG
        split_ifs with a b c d
        · exact hg
        · exact hg
        · exact d.2
        · exact hg
        · exact hg
      have ih := ih (nextG p.2 t) (fun _ => hg') h1
      simp only [passM, passG] at ih ⊢
      by_cases h : IsHitPacket p.2
      · rw [List.filter_cons_of_pos (by simpa using h), List.map_cons, if_pos ⟨h, h0, hg⟩, List.singleton_append,
          List.map_cons, (lineOfHit_any p.2 _ _ tdc gdc p.1).1, ih]
      · rw [List.filter_cons_of_neg (by simpa using h), if_neg (fun h2 => h h2.1), List.nil_append]
        exact ih
    | tdc =>
      have h0 : t.tdc ≠ 0 := h0
      have ih := ih (nextT p.2 t) (by simp) h1
      simp only [passM, passT] at ih ⊢
      by_cases h : IsHitPacket p.2
      · rw [List.filter_cons_of_pos (by simpa using h), List.map_cons, if_pos ⟨h, h0⟩, List.singleton_append,
          List.map_cons, (lineOfHit_any p.2 _ 0 tdc gdc p.1).2, ih]
      · rw [List.filter_cons_of_neg (by simpa using h), if_neg (fun h2 => h h2.1), List.nil_append]
        exact ih

/-- C80 for the fast pipeline, in both modes: its hits are among the manufacturer's, in the same order and with the same
position, time and duration; they are all of them if the pipeline has a trigger time, and in global-clock mode a global time,
from the start. -/
theorem c80_fast (m : Mode) (cs : List Chunk) (c : Clock) (hc : c.timer.toNat < 2 ^ 32)
    (hcs : ∀ c ∈ cs, c.WellFormed) (hn : ∀ c ∈ cs, c.NoLookAlike) (hb : HitBeforeHigh ((chunkPackets cs).map Prod.snd)) :
    ∃ bs c' s, processBuffer m (streamBytes cs) c = .ok (bs, c') ∧ refRun (streamBytes cs) = .ok s ∧
      ((bs.flatMap Batch.hits).map lineOfHit).Sublist (hitLines s.lines) ∧
      ((m = .gdc → c.times.gdc ≠ 0) → (∀ i, i < (chunkPackets cs).length →
        (timesM m c.times (((chunkPackets cs).take i).map Prod.snd)).tdc ≠ 0) →
        (bs.flatMap Batch.hits).map lineOfHit = hitLines s.lines) := by
  obtain ⟨bs, c', h1, h2, _⟩ := processBuffer_stream m cs c hc hcs hn
  obtain ⟨s, e, l, _⟩ := c80_file cs hcs hb
  refine ⟨bs, c', s, h1, e, ?_, fun hg ht => ?_⟩
  · rw [h2, l 0 0]
    exact pass_lines m _ _ 0 0
  · rw [h2, l 0 0]
    exact pass_lines_all m _ _ 0 0 hg ht

theorem globalTimes_last (t : Times) (ws : List U64) :
    (timesG t ws).gdc = ((globalTimes t.low ws).filter (· ≠ 0)).getLastD t.gdc := by
  induction ws generalizing t with
  | nil => rfl
  | cons w ws ih =>
    rw [timesG_cons, ih, globalTimes]
    unfold nextG
    by_cases hT : IsTriggerPacket w
    · have h4 : kind w ≠ 4 := by
        unfold IsTriggerPacket at hT
        unfold kind
        unfold field at hT ⊢
        omega
      rw [if_pos hT, if_neg (fun h => h4 h.1), if_neg (fun h => h4 h.1)]
    · rw [if_neg hT]
      by_cases h4 : IsGlobalPacket w
      · rw [if_pos h4]
        have h4' : kind w = 4 := h4
        by_cases hl : field w 56 4 = 4
        · rw [if_pos hl, if_pos ⟨h4', hl⟩]
        · rw [if_neg hl, if_neg (show ¬ (kind w = 4 ∧ field w 56 4 = 4) from fun h => hl h.2)]
          by_cases hh : field w 56 4 = 5
          · rw [if_pos (show IsHighPacket w from ⟨h4', hh⟩)]
            by_cases hz : field w 16 16 * 2 ^ 32 + t.low ≠ 0
            · rw [if_pos ⟨hh, hz⟩, List.filter_cons_of_pos (by simp only [decide_eq_true_eq]; exact hz), List.getLastD_cons]
            · rw [if_neg (fun h => hz h.2), List.filter_cons_of_neg (by simp only [decide_eq_true_eq]; exact hz)]
          · rw [if_neg (show ¬ IsHighPacket w from fun h => hh h.2), if_neg (fun h => hh h.1)]
      · rw [if_neg h4, if_neg (fun h => h4 h.1), if_neg (fun h => h4 h.1)]

/-- C80 for the global clock: after a file the fast pipeline holds the last global time that the manufacturer's program
computes, times of zero left out. -/
theorem c80_global (cs : List Chunk) (c : Clock) (hc : c.timer.toNat < 2 ^ 32) (hcs : ∀ c ∈ cs, c.WellFormed)
    (hn : ∀ c ∈ cs, c.NoLookAlike) :
    ∃ bs c', processBuffer .gdc (streamBytes cs) c = .ok (bs, c') ∧
      c'.gdc.toNat = ((globalTimes c.timer.toNat ((chunkPackets cs).map Prod.snd)).filter (· ≠ 0)).getLastD c.gdc.toNat := by
  obtain ⟨bs, c', h1, _, h3, _⟩ := processBuffer_stream .gdc cs c hc hcs hn
  refine ⟨bs, c', h1, ?_⟩
  have := congrArg Times.gdc h3
  rw [show c'.gdc.toNat = c'.times.gdc from rfl, this]
  exact globalTimes_last c.times _

/-- C80 for triggers: the manufacturer's program counts every packet of type 6; the pipelines use those whose type byte is
0x6F.  The numbers agree exactly if there are no others. -/
theorem c80_triggers (ws : List U64) :
    ws.countP (fun w => IsTriggerPacket w) ≤ ws.countP (fun w => kind w = 6) ∧
    (ws.countP (fun w => IsTriggerPacket w) = ws.countP (fun w => kind w = 6) ↔
      ∀ w ∈ ws, kind w = 6 → IsTriggerPacket w) := by
  have h : ∀ w, IsTriggerPacket w → kind w = 6 := fun w hT => by
    unfold IsTriggerPacket at hT
    unfold kind
    unfold field at hT ⊢
    omega
  induction ws with
  | nil => simp
  | cons w ws ih =>
    rw [List.countP_cons, List.countP_cons]
    simp only [decide_eq_true_eq, List.mem_cons, forall_eq_or_imp]
    by_cases h1 : IsTriggerPacket w
    · rw [if_pos h1, if_pos (h w h1)]
      refine ⟨by omega, ⟨fun e => ⟨fun _ => h1, ih.2.mp (by omega)⟩, fun e => by rw [ih.2.mpr e.2]⟩⟩
    · by_cases h2 : kind w = 6
      · rw [if_neg h1, if_pos h2]
        exact ⟨by omega, ⟨fun e => by omega, fun e => absurd (e.1 h2) h1⟩⟩
      · rw [if_neg h1, if_neg h2]
        exact ⟨by omega, ⟨fun e => ⟨fun h => absurd h h2, ih.2.mp (by omega)⟩, fun e => by rw [ih.2.mpr e.2]⟩⟩

/-- C80: the fine part of a trigger is always less than one tick, also for the fine counter 0, for which the subtraction wraps
around. -/
theorem c80_trigger_fine (w : U64) : (refFine w).toNat < 4096 := by
  unfold refFine
  simp only
  generalize (((w >>> 5) &&& 0xF#64) - 1#64) <<< 9 / 12#64 = f
  rw [BitVec.toNat_or]
  have h1 : (w &&& 0xE00#64).toNat < 2 ^ 12 := by
    rw [BitVec.toNat_and]; exact lt_of_le_of_lt Nat.and_le_right (by decide)
  have h2 : (f &&& 0x1FF#64).toNat < 2 ^ 12 := by
    rw [BitVec.toNat_and]; exact lt_of_le_of_lt Nat.and_le_right (by decide)
  exact Nat.or_lt_two_pow h1 h2

/-- C80, where the manufacturer's program is undefined: a length that is no multiple of eight, of which the last bytes are
written behind the array; -/
theorem c80_odd_length (file : Bytes) (h : file.length % 8 ≠ 0) : refRun file = .ub .oobWrite := by
  unfold refRun
  rw [if_pos h]

/-- a last block that is cut short, whose missing packets are read from behind the array. -/
theorem c80_truncated (cs : List Chunk) (hcs : ∀ c ∈ cs, c.WellFormed) (hd : U64) (qs : List U64) (hs : StartsTPX hd)
    (hl : 8 * qs.length + 8 ≤ field hd 48 16)
    (hb : HitBeforeHigh ((chunkPackets cs).map Prod.snd ++ qs)) :
    refRun (streamBytes cs ++ (hd :: qs).flatMap bytesOf) = .ub .oobRead := by
  have hlen : (streamBytes cs ++ (hd :: qs).flatMap bytesOf).length = 8 * ((streamWords cs).length + qs.length + 1) := by
    rw [List.length_append, streamBytes_length, length_flatMap_bytesOf, List.length_cons]; omega
  have hcl : cs.length ≤ (streamWords cs).length := by
    clear hcs hb hlen
    induction cs with
    | nil => simp
    | cons c cs ih => rw [streamWords_cons]; simp only [List.length_cons, List.length_append]; omega
  have hw : wordsOf (streamBytes cs ++ (hd :: qs).flatMap bytesOf) = streamWords cs ++ hd :: qs := by
    rw [streamBytes, ← List.flatMap_append, wordsOf_flatMap]
  unfold refRun
  rw [if_neg (by omega), hw]
  obtain ⟨f, hf⟩ : ∃ f, (streamBytes cs ++ (hd :: qs).flatMap bytesOf).length / 8 + 1 = cs.length + (f + 1) :=
    ⟨(streamWords cs).length + qs.length + 1 - cs.length, by omega⟩
  rw [hf, refLoop_stream cs hcs _ (hd :: qs) _ _ _ (by simp)]
  obtain ⟨s, e, _⟩ := (refAll_spec (chunkPackets cs ++ qs.map fun w => (headerChip hd, w)) RefState.init (by decide)).2
    (.inr (by rw [List.map_append, List.map_map]; simpa [Function.comp_def] using hb))
  rw [refAll_append] at e
  cases hA : refAll (chunkPackets cs) RefState.init with
  | ok t =>
    rw [hA] at e
    simp only [Res.bind] at e ⊢
    have h1 : (streamWords cs ++ hd :: qs)[0 + (streamWords cs).length]? = some hd := by simp
    have hdrop : (streamWords cs ++ hd :: qs).drop (0 + (streamWords cs).length + 1) = qs := by
      rw [Nat.zero_add, ← List.drop_drop, List.drop_left]; rfl
    rw [refLoop, h1]
    simp only
    rw [if_pos ((isHeader_iff_starts _).mpr hs), refPackets_short _ _ qs _ _ _ hdrop (by rw [headerPackets_field]; omega), e]
    rfl
  | throws m => rw [hA] at e; exact absurd e (by simp [Res.bind])
  | ub u => rw [hA] at e; exact absurd e (by simp [Res.bind])

/-- A block with a lower half, a hit, an upper half and a trigger. -/
def refChunk : Chunk := ⟨0x0020000033585054#64,
  [0x4400000007C30000#64, 0xB000000000010002#64, 0x4500000000010000#64, 0x6F00000000005000#64]⟩

example : refChunk.WellFormed ∧ refChunk.NoLookAlike ∧ globalTimes 0 ((chunkPackets [refChunk]).map Prod.snd) = [4294969283] ∧
    HitBeforeHigh ((chunkPackets [refChunk]).map Prod.snd) := by
  refine ⟨by decide, by
      intro w hw
      simp only [refChunk, List.mem_cons, List.not_mem_nil, or_false] at hw
      rcases hw with rfl | rfl | rfl | rfl <;> decide, by decide, ?_⟩
  have e : (chunkPackets [refChunk]).map Prod.snd = refChunk.packets := rfl
  rw [e]
  simp only [refChunk, hitBeforeHigh_cons]
  exact ⟨by decide, .inr ⟨by decide, .inl (by decide)⟩⟩

/-- Lines of this block: the spider time 2 and the fine part 1 give 32768 ticks and 14 sixteenths. -/
example : (match refRun (streamBytes [refChunk]) with
    | .ok s => decide (hitLines s.lines = [(260, 0, F64.div (F64.ofRat (819200 + 175 / 8)) (F64.ofRat 1000000000), F64.ofRat 0)] ∧
        s.tdcs = 1)
    | _ => false) = true := by decide +kernel

/-- C80 is false as stated: a file that starts with the global time, as real files do, makes the program use a variable
without a value, and a falling edge of the trigger is a trigger for one program and not for the others. -/
theorem c80_false : (∃ c : Chunk, c.WellFormed ∧ c.NoLookAlike ∧ refRun (streamBytes [c]) = .ub .indeterminate) ∧
    ∃ c : Chunk, c.WellFormed ∧ c.NoLookAlike ∧ (∃ s, refRun (streamBytes [c]) = .ok s ∧ s.tdcs = 1) ∧
      ∃ bs, processBuffer .gdc (streamBytes [c]) Clock.zero = .ok (bs, Clock.zero) := by
  refine ⟨⟨⟨0x0010000033585054#64, [0x4400000007C30000#64, 0x4500000000010000#64]⟩, by decide, by
      intro w hw
      simp only [List.mem_cons, List.not_mem_nil, or_false] at hw
      rcases hw with rfl | rfl <;> decide, by decide +kernel⟩,
    ⟨⟨0x0008000033585054#64, [0x6A00000000005000#64]⟩, by decide, by
      intro w hw
      simp only [List.mem_cons, List.not_mem_nil, or_false] at hw
      rcases hw with rfl; decide, ?_, ?_⟩⟩
  · obtain ⟨s, e, _, _, _, h⟩ := c80_file [⟨0x0008000033585054#64, [0x6A00000000005000#64]⟩] (by decide) (by
      have e : (chunkPackets [⟨0x0008000033585054#64, [0x6A00000000005000#64]⟩]).map Prod.snd = [0x6A00000000005000#64] := rfl
      rw [e, hitBeforeHigh_cons]
      exact ⟨by decide, .inr fun pre w post e => by simp at e⟩)
    exact ⟨s, e, h.trans (by decide)⟩
  · exact ⟨[Batch.new 0 1 0], by decide +kernel⟩

end Verif.Props
