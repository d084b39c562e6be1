import Verif.Spec.ReferenceText
import Verif.Lemmas.TextPrec
import Verif.Props.ReferenceTrigger
import Verif.Props.DetectorLegacy

/-!
# C109: the manufacturer's text file tells every signal of the detector
-/

namespace Verif.Props

open Verif Verif.Spec

/-! ## Numbers in the text -/

theorem ten_pow_le {e : ℤ} {q : ℚ} (n : ℕ) (h : (10 : ℚ) ^ (e + 14) ≤ q) (hq : q < 10 ^ n) : (10 : ℚ) ^ e ≤ 10 ^ ((n : ℤ) - 15) := by
  have h1 : (10 : ℚ) ^ (e + 14) < 10 ^ (n : ℤ) := lt_of_le_of_lt h (by rw [zpow_natCast]; exact hq)
  have h2 := (zpow_lt_zpow_iff_right₀ (by norm_num : (1 : ℚ) < 10)).mp h1
  exact zpow_le_zpow_right₀ (by norm_num) (by omega)

/-- A number below `10^n` is read back up to half of `10^(n - 15)`. -/
theorem text_near (q : ℚ) (hq : 0 ≤ q) (n : ℕ) (hn : q < 10 ^ n) :
    ∃ d, readDecimal? (doubleTextPrec 14 (.fin q)) = some d ∧ |d - q| ≤ 10 ^ ((n : ℤ) - 15) / 2 := by
  obtain ⟨d, h1, h2⟩ := readDecimal_prec 14 q hq
  refine ⟨d, h1, ?_⟩
  rcases h2 with ⟨rfl, rfl⟩ | ⟨e, h2, h3, -⟩
  · simp only [sub_self, abs_zero]
    exact div_nonneg (zpow_nonneg (by norm_num) _) (by norm_num)
  · have := ten_pow_le n h3 hn
    linarith

/-! ## Lines -/

theorem no_space (q : ℚ) : ' ' ∉ doubleTextPrec 14 (.fin q) := prec_no_sep (by decide) (by decide) (by decide) (by decide) (by decide) 14 q

theorem no_feed (q : ℚ) : '\n' ∉ doubleTextPrec 14 (.fin q) := prec_no_sep (by decide) (by decide) (by decide) (by decide) (by decide) 14 q

/-- What a line is read as. -/
def LineReads (l : RefLine) (r : TextLine) : Prop := ∃ b, refText l = b ++ ['\n'] ∧ '\n' ∉ b ∧ readTextLine? b = some r

theorem trigger_reads (q d : ℚ) (h : readDecimal? (doubleTextPrec 14 (.fin q)) = some d) : LineReads (.trigger (.fin q)) (.trigger d) := by
  refine ⟨_, rfl, no_feed q, ?_⟩
  unfold readTextLine?
  rw [fields_single (no_space q)]
  simp only
  rw [h]
  rfl

theorem global_reads (q d : ℚ) (h : readDecimal? (doubleTextPrec 14 (.fin q)) = some d) : LineReads (.global (.fin q)) (.clock d) := by
  refine ⟨_, rfl, ?_, ?_⟩
  · rw [List.mem_append, not_or]
    exact ⟨by decide, no_feed q⟩
  · have hf : fields ' ' (" Global time: ".toList ++ doubleTextPrec 14 (.fin q)) =
        [[], "Global".toList, "time:".toList, doubleTextPrec 14 (.fin q)] := by
      have e : " Global time: ".toList ++ doubleTextPrec 14 (.fin q) =
          [] ++ ' ' :: ("Global".toList ++ ' ' :: ("time:".toList ++ ' ' :: doubleTextPrec 14 (.fin q))) := rfl
      rw [e, fields_append _ (by decide), fields_append _ (by decide), fields_append _ (by decide), fields_single (no_space q)]
    unfold readTextLine?
    rw [hf]
    simp only
    rw [if_pos (by simp), h]
    rfl

theorem hit_reads (x y : Int) (q u d e : ℚ) (h : readDecimal? (doubleTextPrec 14 (.fin q)) = some d)
    (h' : readDecimal? (doubleTextPrec 14 (.fin u)) = some e) : LineReads (.hit x y (.fin q) (.fin u)) (.hit x y d e) := by
  have hx : ∀ n, '\n' ∉ intText n := fun n => int_no_sep (by decide) (by decide) n
  have hs : ∀ n, ' ' ∉ intText n := fun n => int_no_sep (by decide) (by decide) n
  have h2 : '\n' ∉ "  ".toList := by decide
  refine ⟨_, rfl, ?_, ?_⟩
  · simp only [List.mem_append, not_or]
    exact ⟨⟨⟨⟨⟨⟨hx x, h2⟩, hx y⟩, h2⟩, no_feed q⟩, h2⟩, no_feed u⟩
  · have hf : fields ' ' (intText x ++ "  ".toList ++ intText y ++ "  ".toList ++ doubleTextPrec 14 (.fin q) ++ "  ".toList ++
        doubleTextPrec 14 (.fin u)) = [intText x, [], intText y, [], doubleTextPrec 14 (.fin q), [], doubleTextPrec 14 (.fin u)] := by
      have e : intText x ++ "  ".toList ++ intText y ++ "  ".toList ++ doubleTextPrec 14 (.fin q) ++ "  ".toList ++
          doubleTextPrec 14 (.fin u) = intText x ++ ' ' :: ([] ++ ' ' :: (intText y ++ ' ' :: ([] ++ ' ' ::
            (doubleTextPrec 14 (.fin q) ++ ' ' :: ([] ++ ' ' :: doubleTextPrec 14 (.fin u)))))) := by
        simp
      rw [e, fields_append _ (hs x), fields_append _ (by decide), fields_append _ (hs y), fields_append _ (by decide),
        fields_append _ (no_space q), fields_append _ (by decide), fields_single (no_space u)]
    unfold readTextLine?
    rw [hf]
    simp only
    rw [if_pos (by simp), readInt_intText, readInt_intText, h, h']

/-- A text whose lines are read is read. -/
theorem text_reads {ls : List RefLine} {rs : List TextLine} (h : List.Forall₂ LineReads ls rs) :
    readText? (ls.map refText).flatten = some rs := by
  have key : ∃ bs : List (List Char), (ls.map refText).flatten = (bs.map fun b => b ++ ['\n']).flatten ∧ (∀ b ∈ bs, '\n' ∉ b) ∧
      bs.mapM readTextLine? = some rs := by
    induction h with
    | nil => exact ⟨[], rfl, by simp, rfl⟩
    | cons h _ ih =>
      obtain ⟨bs, i1, i2, i3⟩ := ih
      obtain ⟨b, j1, j2, j3⟩ := h
      refine ⟨b :: bs, ?_, ?_, ?_⟩
      · simp only [List.map_cons, List.flatten_cons]
        rw [i1, j1]
      · intro c hc
        rcases List.mem_cons.mp hc with rfl | hc
        · exact j2
        · exact i2 c hc
      · rw [List.mapM_cons, j3, i3]
        rfl
  obtain ⟨bs, h1, h2, h3⟩ := key
  unfold readText?
  rw [h1, fields_lines (fun b => b) bs h2]
  simp only [List.map_id']
  rw [if_pos (by simp), List.dropLast_concat]
  exact h3

/-! ## One packet -/

theorem tot_text (w : U64) : ∃ u, refTotNs w = .fin u ∧ readDecimal? (doubleTextPrec 14 (.fin u)) = some (25 * (field w 20 10 : ℚ)) := by
  have b : field w 20 10 < 2 ^ 10 := Nat.mod_lt _ (by norm_num)
  have e : ((w >>> 20) &&& 0x3FF#64).toNat = field w 20 10 := by unfold field; bits_to_nat
  refine ⟨((25 * field w 20 10 : ℕ) : ℚ), ?_, ?_⟩
  · unfold refTotNs
    rw [e, F64_ns_exact _ (by omega) (by omega)]
    push_cast
    rfl
  · rw [readDecimal_exact 14 _ (by omega)]
    push_cast
    rfl

theorem place_eq (chip : Int) (w : U64) : refLayout chip (refPixel w) = pixelOnDetector chip w := by
  rw [refPixel_eq, pixelXY_eq, decPixaddr_toNat]
  unfold pixelOnDetector refLayout onDetector field
  have := w.isLt
  generalize w.toNat = n at *
  have e1 : n / 2 ^ 44 % 2 ^ 16 / 512 = n / 2 ^ 53 % 2 ^ 7 := by omega
  have e2 : n / 2 ^ 44 % 2 ^ 16 % 8 / 4 = n / 2 ^ 46 % 2 ^ 1 := by omega
  have e3 : n / 2 ^ 44 % 2 ^ 16 / 8 % 64 = n / 2 ^ 47 % 2 ^ 6 := by omega
  have e4 : n / 2 ^ 44 % 2 ^ 16 % 4 = n / 2 ^ 44 % 2 ^ 2 := by omega
  rw [e1, e2, e3, e4]
  generalize n / 2 ^ 53 % 2 ^ 7 = a
  generalize n / 2 ^ 46 % 2 ^ 1 = b
  generalize n / 2 ^ 47 % 2 ^ 6 = c
  generalize n / 2 ^ 44 % 2 ^ 2 = d
  clear e1 e2 e3 e4 this
  split_ifs <;> refine Prod.ext ?_ ?_ <;> (try dsimp only) <;> push_cast <;> ring

theorem hit_line (low : Nat) (chip : Int) (w : U64) (h : IsHitPacket w) : ∃ r, LineReads (refHit chip w) r ∧ SaysPacket low chip w r := by
  have b0 : field w 0 16 < 2 ^ 16 := Nat.mod_lt _ (by norm_num)
  have b1 : field w 30 14 < 2 ^ 14 := Nat.mod_lt _ (by norm_num)
  have b2 : field w 16 4 < 2 ^ 4 := Nat.mod_lt _ (by norm_num)
  obtain ⟨n, hn, hlt⟩ : ∃ n : ℕ, fineArrival w = 25 / 16 * n ∧ n < 2 ^ 34 := by
    refine ⟨16 * clock30 w + (15 - field w 16 4), ?_, ?_⟩
    · unfold fineArrival
      push_cast [Nat.cast_sub (show field w 16 4 ≤ 15 by omega)]
      ring
    · unfold clock30; omega
  have hn0 : (0 : ℚ) ≤ n := by positivity
  have hn1 : (n : ℚ) ≤ 2 ^ 34 := by exact_mod_cast hlt.le
  obtain ⟨u, u1, u2⟩ := tot_text w
  have e9 : F64.ofRat 1000000000 = .fin 1000000000 := by
    have := F64.ofRat_int (n := 1000000000) (by norm_num); exact_mod_cast this
  have hq : F64.div (refTimeNs w) (F64.ofRat 1000000000) = .fin (rndQ (fineArrival w / 1000000000)) := by
    rw [refTimeNs_eq, e9]
    simp only [F64.div]
    rw [if_neg (by norm_num), ofRat_upTo (by rw [hn]; positivity) (by rw [hn]; linarith)]
  have em100 : (2 : ℚ) ^ (-100 : ℤ) ≤ 1 / 10 ^ 20 := by norm_num
  have hr := rnd_near (q := fineArrival w / 1000000000) (by
    rw [hn]
    rcases Nat.eq_zero_or_pos n with h | h
    · left; rw [h]; norm_num
    · right
      have : (1 : ℚ) ≤ n := by exact_mod_cast h
      linarith)
  have hr0 : 0 ≤ rndQ (fineArrival w / 1000000000) := rndQ_nonneg (by rw [hn]; positivity)
  have e53 : (2 : ℚ) ^ (-53 : ℤ) = 1 / 9007199254740992 := by norm_num
  generalize rndQ (fineArrival w / 1000000000) = R at *
  rw [e53, hn, abs_le] at hr
  obtain ⟨d, d1, d2⟩ := text_near R hr0 2 (by linarith [hr.2])
  refine ⟨.hit (pixelOnDetector chip w).1 (pixelOnDetector chip w).2 d (25 * field w 20 10), ?_, .hit d _ h ?_ rfl⟩
  · unfold refHit
    simp only
    rw [place_eq, hq, u1]
    exact hit_reads _ _ _ _ _ _ d1 u2
  · unfold NearNs
    rw [hn]
    have e13 : (10 : ℚ) ^ (((2 : ℕ) : ℤ) - 15) = 1 / 10 ^ 13 := by norm_num
    rw [e13, abs_le] at d2
    rw [abs_le]
    constructor <;> linarith [d2.1, d2.2, hr.1, hr.2]

theorem refFine_zero (w : U64) (h : field w 5 4 = 0) : (refFine w).toNat = 512 * field w 9 3 + 298 := by
  have hf : (w >>> 5) &&& 0xF#64 = 0#64 := by
    apply BitVec.eq_of_toNat_eq
    unfold field at h
    bits_to_nat
    omega
  have he : (w &&& 0xE00#64).toNat = 512 * field w 9 3 := by
    have := and_mask w.toNat 3 9
    rw [BitVec.toNat_and]
    unfold field
    rw [Nat.mul_comm]
    exact this
  have key : ((((0#64 - 1#64) <<< 9) / 12#64) &&& 0x1FF#64).toNat = 298 := by decide
  unfold refFine
  simp only
  rw [hf, BitVec.toNat_or, he, key]
  exact or_eq_add _ _ 9 (by omega) (by omega)

theorem trigger_line (low : Nat) (chip : Int) (w : U64) (h : kind w = 6) :
    ∃ r, LineReads (.trigger (refTrigger w)) r ∧ SaysPacket low chip w r := by
  have b1 : field w 12 32 < 2 ^ 32 := Nat.mod_lt _ (by norm_num)
  have hC : (field w 12 32 : ℚ) ≤ 4294967296 := by exact_mod_cast b1.le
  have hFlt : (refFine w).toNat < 4096 := c80_trigger_fine w
  have hF : ((refFine w).toNat : ℚ) ≤ 4096 := by exact_mod_cast hFlt.le
  obtain ⟨t, t1, t2, t3⟩ := refTrigger_value w (25 * (field w 12 32 : ℕ) + (refFine w).toNat * (25 / 4096)) ⟨by norm_num, by norm_num⟩
  rw [abs_le] at t3
  obtain ⟨d, d1, d2⟩ := text_near t t2 3 (by linarith [t3.2])
  have e12 : (10 : ℚ) ^ (((3 : ℕ) : ℤ) - 15) = 1 / 10 ^ 12 := by norm_num
  rw [e12, abs_le] at d2
  refine ⟨.trigger d, ?_, .trigger d h ?_ ?_⟩
  · rw [t1]
    exact trigger_reads _ _ d1
  · intro h1 h2
    obtain ⟨t', t1', t3'⟩ := c80_trigger_time w h1 h2
    rw [t1] at t1'
    injection t1' with t1'
    subst t1'
    unfold NearNs
    rw [abs_le] at t3' ⊢
    constructor <;> linarith [d2.1, d2.2, t3'.1, t3'.2]
  · intro h0
    have hz : ((refFine w).toNat : ℚ) = 512 * field w 9 3 + 298 := by rw [refFine_zero w h0]; push_cast; rfl
    rw [hz] at t3
    unfold NearNs
    rw [abs_le]
    constructor <;> linarith [d2.1, d2.2, t3.1, t3.2]

theorem clock_line (low : Nat) (chip : Int) (w : U64) (h : IsHighPacket w) (hl : low < 2 ^ 32) :
    ∃ r, LineReads (.global (F64.mul (F64.ofInt ((field w 16 16 * 2 ^ 32 + low : ℕ) : ℤ)) (F64.ofRat (25 / 1000000000)))) r ∧
      SaysPacket low chip w r := by
  have b1 : field w 16 16 < 2 ^ 16 := Nat.mod_lt _ (by norm_num)
  obtain ⟨g, hg⟩ : ∃ g : ℕ, g = field w 16 16 * 2 ^ 32 + low := ⟨_, rfl⟩
  have hgl : g < 2 ^ 48 := by omega
  have hgc : (25 : ℚ) * (field w 16 16 * 2 ^ 32 + low) = 25 * g := by rw [hg]; push_cast; ring
  have hg0 : (0 : ℚ) ≤ g := by positivity
  have hg1 : (g : ℚ) ≤ 281474976710656 := by exact_mod_cast hgl.le
  rw [← hg, F64.ofInt_exact (by rw [abs_of_nonneg (by omega)]; omega), ofRat_upTo (q := 25 / 1000000000) (by norm_num) (by norm_num)]
  have em100 : (2 : ℚ) ^ (-100 : ℤ) ≤ 1 / 10 ^ 20 := by norm_num
  have e53 : (2 : ℚ) ^ (-53 : ℤ) = 1 / 9007199254740992 := by norm_num
  have k1 := rnd_near (q := 25 / 1000000000) (.inr (em100.trans (by norm_num)))
  rw [e53, abs_le] at k1
  generalize rndQ (25 / 1000000000) = c at *
  simp only [F64.mul, Int.cast_natCast]
  have p0 : 0 ≤ g * c := mul_nonneg hg0 (by linarith [k1.1])
  have p1 : g * c ≤ 8000000 := by nlinarith [k1.2]
  have k2 := rnd_near (q := g * c) (by
    rcases Nat.eq_zero_or_pos g with h | h
    · left; rw [h]; norm_num
    · right
      have h1 : (1 : ℚ) ≤ g := by exact_mod_cast h
      refine em100.trans ?_
      nlinarith [k1.1])
  rw [ofRat_upTo p0 (by linarith)]
  have r0 := rndQ_nonneg p0
  have d1 : |g * c - g * (25 / 1000000000)| ≤ 8 * (1 / 9007199254740992) * 1000000 := by
    rw [abs_le]; constructor <;> nlinarith [k1.1, k1.2]
  rw [abs_le] at d1
  generalize g * c = P at *
  generalize rndQ P = R at *
  rw [e53, abs_le] at k2
  obtain ⟨d, e1, e2⟩ := text_near R r0 7 (by linarith [k2.2])
  have e8 : (10 : ℚ) ^ (((7 : ℕ) : ℤ) - 15) = 1 / 10 ^ 8 := by norm_num
  rw [e8, abs_le] at e2
  refine ⟨.clock d, global_reads _ _ e1, .clock d h ?_⟩
  rw [hgc]
  unfold NearNs
  rw [abs_le]
  constructor <;> linarith [e2.1, e2.2, k2.1, k2.2, d1.1, d1.2]

/-! ## All packets -/

/-- The lines of a packet that gives one. -/
def lineOf (e : Nat × Int × U64) : RefLine :=
  if kind e.2.2 = 6 then .trigger (refTrigger e.2.2)
  else if IsHitPacket e.2.2 then refHit e.2.1 e.2.2
  else .global (F64.mul (F64.ofInt ((field e.2.2 16 16 * 2 ^ 32 + e.1 : ℕ) : ℤ)) (F64.ofRat (25 / 1000000000)))

theorem refAll_lines (ps : List (Int × U64)) (s : RefState) (hs : s.lsb.toNat < 2 ^ 32) (hv : s.spidr ≠ none) :
    ∃ s', refAll ps s = .ok s' ∧ s'.lines = s.lines ++ (linePackets s.lsb.toNat ps).map lineOf := by
  induction ps generalizing s with
  | nil => exact ⟨s, rfl, by simp [linePackets]⟩
  | cons p ps ih =>
    simp only [refAll, linePackets]
    by_cases h6 : kind p.2 = 6
    · rw [if_neg (by omega), if_pos (.inl h6), refPacket_trigger _ _ _ h6]
      obtain ⟨s', e, l⟩ := ih { s with tdcs := s.tdcs + 1, lines := s.lines ++ [.trigger (refTrigger p.2)] } hs hv
      refine ⟨s', e, ?_⟩
      rw [l]
      simp [lineOf, h6]
    · by_cases hh : IsHitPacket p.2
      · rw [if_neg (by unfold IsHitPacket at hh; omega), if_pos (.inr (.inl hh)), refPacket_hit _ _ _ hh]
        obtain ⟨s', e, l⟩ := ih { s with spidr := some ((p.2 &&& 0xFFFF#64).setWidth 16), lines := s.lines ++ [refHit p.1 p.2] } hs (by simp)
        refine ⟨s', e, ?_⟩
        rw [l]
        simp [lineOf, h6, hh]
      · by_cases hl : kind p.2 = 4 ∧ field p.2 56 4 = 4
        · have hw : ((p.2 >>> 16) &&& 0xFFFFFFFF#64).toNat = field p.2 16 32 := by unfold field; bits_to_nat
          rw [if_pos hl, refPacket_low _ _ _ hl.1 hl.2]
          obtain ⟨s', e, l⟩ := ih { s with lsb := (p.2 >>> 16) &&& 0xFFFFFFFF#64 } (by
            simp only [hw]; exact Nat.mod_lt _ (by norm_num)) hv
          refine ⟨s', e, ?_⟩
          rw [l]
          simp only [hw]
        · rw [if_neg hl]
          by_cases hg : IsHighPacket p.2
          · rw [if_pos (.inr (.inr hg))]
            obtain ⟨m, r⟩ := (refPacket_high p.1 p.2 s hg hs).2 hv
            rw [r]
            obtain ⟨s', e, l⟩ := ih { s with msb := m, lines := s.lines ++ [.global (F64.mul (F64.ofInt ((field p.2 16 16 * 2 ^ 32 +
              s.lsb.toNat : ℕ) : ℤ)) (F64.ofRat (25 / 1000000000)))] } hs hv
            refine ⟨s', e, ?_⟩
            rw [l]
            simp [lineOf, h6, hh]
          · rw [if_neg (by simp [h6, hh, hg]), refPacket_other _ _ _ h6 hh hl hg]
            exact ih s hs hv

theorem linePackets_kinds (ps : List (Int × U64)) (low : Nat) (hlow : low < 2 ^ 32) : ∀ e ∈ linePackets low ps,
    e.1 < 2 ^ 32 ∧ (kind e.2.2 = 6 ∨ IsHitPacket e.2.2 ∨ IsHighPacket e.2.2) := by
  induction ps generalizing low with
  | nil => simp [linePackets]
  | cons p ps ih =>
    intro e he
    rw [linePackets] at he
    split_ifs at he with h1 h2
    · exact ih _ (Nat.mod_lt _ (by norm_num)) e he
    · rcases List.mem_cons.mp he with rfl | he
      · exact ⟨hlow, h2⟩
      · exact ih _ hlow e he
    · exact ih _ hlow e he

theorem refRunFrom_stream (v : BitVec 16) (cs : List Chunk) (hcs : ∀ c ∈ cs, c.WellFormed) :
    refRunFrom v (streamBytes cs) = refAll (chunkPackets cs) { RefState.init with spidr := some v } := by
  have hl : (streamBytes cs).length = 8 * (streamWords cs).length := streamBytes_length cs
  have hcl : cs.length ≤ (streamWords cs).length := by
    clear hcs hl
    induction cs with
    | nil => simp
    | cons c cs ih => rw [streamWords_cons]; simp only [List.length_cons, List.length_append]; omega
  unfold refRunFrom
  rw [if_neg (by omega), wordsOf_streamBytes]
  obtain ⟨f, hf⟩ : ∃ f, (streamBytes cs).length / 8 + 1 = cs.length + (f + 1) := ⟨(streamWords cs).length - cs.length, by omega⟩
  rw [hf, refLoop_stream cs hcs _ [] _ _ _ (by simp)]
  cases refAll (chunkPackets cs) { RefState.init with spidr := some v } with
  | ok t =>
    have : (streamWords cs)[0 + (streamWords cs).length]? = none := by simp
    simp only [Res.bind, refLoop, this]
  | throws e => rfl
  | ub u => rfl

/-- C109 for every complete file: whatever value the unset variable has, the program ends, the text it writes is readable, has one
line for each hit, trigger and upper half of the clock, in the order of the packets, and each line gives the counters of its packet. -/
theorem c109_lines (cs : List Chunk) (hcs : ∀ c ∈ cs, c.WellFormed) :
    ∃ text rs, (∀ v, ∃ s, refRunFrom v (streamBytes cs) = .ok s ∧ (s.lines.map refText).flatten = text) ∧ readText? text = some rs ∧
      List.Forall₂ (fun e r => SaysPacket e.1 e.2.1 e.2.2 r) (linePackets 0 (chunkPackets cs)) rs := by
  have key : ∀ l : List (Nat × Int × U64), (∀ e ∈ l, e.1 < 2 ^ 32 ∧ (kind e.2.2 = 6 ∨ IsHitPacket e.2.2 ∨ IsHighPacket e.2.2)) →
      ∃ rs, List.Forall₂ LineReads (l.map lineOf) rs ∧ List.Forall₂ (fun e r => SaysPacket e.1 e.2.1 e.2.2 r) l rs := by
    intro l
    induction l with
    | nil => exact fun _ => ⟨[], .nil, .nil⟩
    | cons e l ih =>
      intro h
      obtain ⟨rs, i1, i2⟩ := ih (fun e he => h e (by simp [he]))
      obtain ⟨hlow, hk⟩ := h e (by simp)
      have : ∃ r, LineReads (lineOf e) r ∧ SaysPacket e.1 e.2.1 e.2.2 r := by
        unfold lineOf
        by_cases h6 : kind e.2.2 = 6
        · rw [if_pos h6]
          exact trigger_line _ _ _ h6
        · by_cases hh : IsHitPacket e.2.2
          · rw [if_neg h6, if_pos hh]
            exact hit_line _ _ _ hh
          · rw [if_neg h6, if_neg hh]
            exact clock_line _ _ _ ((hk.resolve_left h6).resolve_left hh) hlow
      obtain ⟨r, r1, r2⟩ := this
      exact ⟨r :: rs, .cons r1 i1, .cons r2 i2⟩
  obtain ⟨rs, h1, h2⟩ := key _ (linePackets_kinds (chunkPackets cs) 0 (by norm_num))
  refine ⟨_, rs, fun v => ?_, text_reads h1, h2⟩
  obtain ⟨s', e, l⟩ := refAll_lines (chunkPackets cs) { RefState.init with spidr := some v } (by simp [RefState.init]) (by simp)
  refine ⟨s', by rw [refRunFrom_stream v cs hcs]; exact e, ?_⟩
  rw [l]
  rfl

/-! ## The signals of a detector -/

theorem triggerWord_fine (t : Nat) : kind (triggerWord t) = 6 ∧ field (triggerWord t) 5 4 = 0 ∧ field (triggerWord t) 9 3 = 0 := by
  unfold kind field triggerWord
  rw [BitVec.toNat_ofNat]
  have : t % 2 ^ 32 < 2 ^ 32 := Nat.mod_lt _ (by norm_num)
  generalize t % 2 ^ 32 = m at *
  refine ⟨?_, ?_, ?_⟩ <;> omega

theorem pixel_place {t col row tot ftoa : Nat} (h : PixelOk col row tot ftoa) (chip : Int) :
    pixelOnDetector chip (pixelWord t col row tot ftoa) = onDetector chip col row := by
  have hw := pixelWord_toNat (t := t) h
  obtain ⟨h1, h2, h3, h4⟩ := h
  have ha : t / 2 ^ 14 % 2 ^ 16 < 2 ^ 16 := Nat.mod_lt _ (by norm_num)
  have hb : t % 2 ^ 14 < 2 ^ 14 := Nat.mod_lt _ (by norm_num)
  have e1 : field (pixelWord t col row tot ftoa) 53 7 * 2 + field (pixelWord t col row tot ftoa) 46 1 = col := by
    unfold field
    rw [hw]
    unfold pixelAddress
    generalize t / 2 ^ 14 % 2 ^ 16 = b at *
    generalize t % 2 ^ 14 = c at *
    omega
  have e2 : field (pixelWord t col row tot ftoa) 47 6 * 4 + field (pixelWord t col row tot ftoa) 44 2 = row := by
    unfold field
    rw [hw]
    unfold pixelAddress
    generalize t / 2 ^ 14 % 2 ^ 16 = b at *
    generalize t % 2 ^ 14 = c at *
    omega
  unfold pixelOnDetector
  rw [e1, e2]

theorem pixel_fields {t col row tot ftoa : Nat} (h : PixelOk col row tot ftoa) :
    field (pixelWord t col row tot ftoa) 20 10 = tot ∧ field (pixelWord t col row tot ftoa) 16 4 = ftoa := by
  have hw := pixelWord_toNat (t := t) h
  obtain ⟨h1, h2, h3, h4⟩ := h
  have h5 := address_lt h1 h2
  have ha : t / 2 ^ 14 % 2 ^ 16 < 2 ^ 16 := Nat.mod_lt _ (by norm_num)
  have hb : t % 2 ^ 14 < 2 ^ 14 := Nat.mod_lt _ (by norm_num)
  unfold field
  rw [hw]
  generalize pixelAddress col row = a at *
  generalize t / 2 ^ 14 % 2 ^ 16 = b at *
  generalize t % 2 ^ 14 = c at *
  refine ⟨?_, ?_⟩ <;> omega

/-- The signals of a detector with their chips, in the order of the file. -/
def chipSignals (rs : List Readout) : List (Int × Signal) := rs.flatMap fun r => r.signals.map fun s => ((r.chip : Int), s)

theorem chipSignals_packets (rs : List Readout) (hfit : ∀ r ∈ rs, r.Fits) :
    chunkPackets (rs.map Readout.chunk) = (chipSignals rs).flatMap fun e => e.2.packets.map fun w => (e.1, w) := by
  unfold chunkPackets chipSignals
  induction rs with
  | nil => rfl
  | cons r rs ih =>
    rw [List.map_cons, List.flatMap_cons, List.flatMap_cons, List.flatMap_append, ih fun r h => hfit r (by simp [h]),
      (readout_fits (hfit r (by simp))).2.1]
    congr 1
    change (r.signals.flatMap Signal.packets).map _ = _
    rw [List.map_flatMap, List.flatMap_map]

theorem signal_lines (sl : List (Int × Signal)) (hok : ∀ e ∈ sl, SignalOk e.2) (low : Nat) (rs : List TextLine)
    (h : List.Forall₂ (fun e r => SaysPacket e.1 e.2.1 e.2.2 r)
      (linePackets low (sl.flatMap fun e => e.2.packets.map fun w => (e.1, w))) rs) :
    List.Forall₂ (fun e r => SaysSignal e.1 e.2 r) sl rs := by
  induction sl generalizing low rs with
  | nil =>
    simp only [List.flatMap_nil, linePackets] at h
    cases h
    exact .nil
  | cons e sl ih =>
    have hok' : ∀ e ∈ sl, SignalOk e.2 := fun e h => hok e (by simp [h])
    have hk := hok e (by simp)
    obtain ⟨chip, sg⟩ := e
    rw [List.flatMap_cons] at h
    cases sg with
    | trigger t =>
      simp only [packets_trigger, List.map_cons, List.map_nil, List.cons_append, List.nil_append] at h
      obtain ⟨k1, k2, k3⟩ := triggerWord_fine t
      rw [linePackets, if_neg (by simp [k1]), if_pos (.inl k1)] at h
      cases h with
      | cons h1 h2 =>
        refine .cons ?_ (ih hok' _ _ h2)
        cases h1 with
        | trigger s _ _ hz =>
          refine .trigger t s ?_
          have := hz k2
          simp only [k3, (triggerWord_fields t).2.2] at this
          simpa using this
        | hit s tot hh => exact absurd hh (triggerWord_fields t).2.1
        | clock s hh => exact absurd (hh.1 ▸ k1 : (4 : Nat) = 6) (by decide)
    | clock t =>
      simp only [packets_clock, List.map_cons, List.map_nil, List.cons_append, List.nil_append] at h
      obtain ⟨l1, -, -, l4, l5⟩ := clockLow_fields t
      obtain ⟨k1, k2, k3, k4, k5⟩ := clockHigh_fields t
      have hl : kind (clockLow t) = 4 := by
        unfold kind clockLow field
        rw [BitVec.toNat_ofNat]
        have : t % 2 ^ 32 < 2 ^ 32 := Nat.mod_lt _ (by norm_num)
        generalize t % 2 ^ 32 = m at *
        omega
      have hh : kind (clockHigh t) = 4 := by
        unfold kind clockHigh field
        rw [BitVec.toNat_ofNat]
        have : t / 2 ^ 32 % 2 ^ 16 < 2 ^ 16 := Nat.mod_lt _ (by norm_num)
        generalize t / 2 ^ 32 % 2 ^ 16 = m at *
        omega
      rw [linePackets, if_pos ⟨hl, l4⟩, linePackets, if_neg (by simp [k4]), if_pos (.inr (.inr ⟨hh, k4⟩))] at h
      cases h with
      | cons h1 h2 =>
        refine .cons ?_ (ih hok' _ _ h2)
        cases h1 with
        | trigger s h6 => exact absurd (hh ▸ h6 : (4 : Nat) = 6) (by decide)
        | hit s tot hh => exact absurd hh k3
        | clock s _ hn =>
          refine .clock t s ?_
          simp only [k5, l5] at hn
          have e : t % 2 ^ 48 = t / 2 ^ 32 % 2 ^ 16 * 2 ^ 32 + t % 2 ^ 32 := by omega
          rw [e]
          push_cast at hn ⊢
          exact hn
    | pixel t col row tot ftoa =>
      simp only [packets_pixel, List.map_cons, List.map_nil, List.cons_append, List.nil_append] at h
      have hp : PixelOk col row tot ftoa := hk
      obtain ⟨f1, f2, f3, f4, -⟩ := pixelWord_fields (t := t) hp
      obtain ⟨g1, g2⟩ := pixel_fields (t := t) hp
      have hkind : kind (pixelWord t col row tot ftoa) = 11 := f1
      rw [linePackets, if_neg (by simp [hkind]), if_pos (.inr (.inl f1))] at h
      cases h with
      | cons h1 h2 =>
        refine .cons ?_ (ih hok' _ _ h2)
        cases h1 with
        | trigger s h6 => exact absurd (hkind ▸ h6 : (11 : Nat) = 6) (by decide)
        | hit s u _ hn ht =>
          simp only [pixel_place hp] at *
          rw [ht, g1]
          refine .pixel t col row tot ftoa s ?_
          unfold fineArrival at hn
          rwa [f4, g2] at hn
        | clock s hh => exact absurd (hkind ▸ hh.1 : (11 : Nat) = 4) (by decide)

/-- C109: the text of the manufacturer's program for the file of a detector has one line for every signal, in the order of the file,
which tells its time and place up to a fraction of the unit of its counter. -/
theorem c109_detector (v : BitVec 16) (rs : List Readout) (hfit : ∀ r ∈ rs, r.Fits) (hok : ∀ r ∈ rs, ∀ s ∈ r.signals, SignalOk s)
    (name : List Char) (args : List (List Char)) (files : List Char → Option Bytes) (hname : name ≠ "converted.txt".toList)
    (hfile : files name = some (detectorFile rs)) :
    ∃ text ls, refMain v (name :: args) files = .ok (some text) ∧ readText? text = some ls ∧
      List.Forall₂ (fun e l => SaysSignal e.1 e.2 l) (chipSignals rs) ls := by
  obtain ⟨text, ls, h1, h2, h3⟩ := c109_lines (rs.map Readout.chunk) (by
    intro c hc
    obtain ⟨r, hr, rfl⟩ := List.mem_map.mp hc
    exact (readout_fits (hfit r hr)).1)
  obtain ⟨s, e1, e2⟩ := h1 v
  refine ⟨text, ls, ?_, h2, ?_⟩
  · unfold refMain
    simp only [if_neg hname, hfile]
    unfold detectorFile
    rw [e1, ← e2]
    rfl
  · rw [chipSignals_packets rs hfit] at h3
    refine signal_lines _ ?_ _ _ h3
    intro e he
    unfold chipSignals at he
    obtain ⟨r, hr, he⟩ := List.mem_flatMap.mp he
    obtain ⟨s, hs, rfl⟩ := List.mem_map.mp he
    exact hok r hr s hs

theorem near_unique {s a b tol : ℚ} (ha : NearNs s a tol) (hb : NearNs s b tol) : |a - b| ≤ 2 * tol := by
  unfold NearNs at ha hb
  rw [abs_le] at *
  constructor <;> linarith

/-- C109: a line tells its signal: the counters in the packets of two signals with the same line are the same. -/
theorem c109_unique (chip : Int) (hchip : chip = 0 ∨ chip = 1 ∨ chip = 2 ∨ chip = 3) (a b : Signal) (ha : SignalOk a) (hb : SignalOk b) (l : TextLine) (h1 : SaysSignal chip a l)
    (h2 : SaysSignal chip b l) : a.packets = b.packets := by
  cases h1 with
  | trigger t s h1 =>
    cases h2 with
    | trigger u _ h2 =>
      have := near_unique h1 h2
      have e : t % 2 ^ 32 = u % 2 ^ 32 := by
        generalize t % 2 ^ 32 = m at *
        generalize u % 2 ^ 32 = n at *
        rw [abs_le] at this
        obtain ⟨i1, i2⟩ := this
        have j1 : (m : ℚ) < n + 1 := by linarith
        have j2 : (n : ℚ) < m + 1 := by linarith
        have k1 : m < n + 1 := by exact_mod_cast j1
        have k2 : n < m + 1 := by exact_mod_cast j2
        omega
      rw [packets_trigger, packets_trigger]
      unfold triggerWord
      rw [e]
  | clock t s h1 =>
    cases h2 with
    | clock u _ h2 =>
      have := near_unique h1 h2
      have e : t % 2 ^ 48 = u % 2 ^ 48 := by
        generalize t % 2 ^ 48 = m at *
        generalize u % 2 ^ 48 = n at *
        rw [abs_le] at this
        obtain ⟨i1, i2⟩ := this
        have j1 : (m : ℚ) < n + 1 := by linarith
        have j2 : (n : ℚ) < m + 1 := by linarith
        have k1 : m < n + 1 := by exact_mod_cast j1
        have k2 : n < m + 1 := by exact_mod_cast j2
        omega
      rw [packets_clock, packets_clock]
      unfold clockLow clockHigh
      have e1 : t % 2 ^ 32 = u % 2 ^ 32 := by omega
      have e2 : t / 2 ^ 32 % 2 ^ 16 = u / 2 ^ 32 % 2 ^ 16 := by omega
      rw [e1, e2]
  | pixel t col row tot ftoa s h1 =>
    generalize hx : (onDetector chip col row).1 = x at h2
    generalize hy : (onDetector chip col row).2 = y at h2
    generalize ht : (25 * (tot : ℚ)) = q at h2
    cases h2 with
    | pixel u col' row' tot' ftoa' _ h2 =>
      have ha : PixelOk col row tot ftoa := ha
      have hb : PixelOk col' row' tot' ftoa' := hb
      have := near_unique h1 h2
      obtain ⟨a1, a2, a3, a4⟩ := ha
      obtain ⟨b1, b2, b3, b4⟩ := hb
      have e : t % 2 ^ 30 = u % 2 ^ 30 ∧ ftoa = ftoa' := by
        generalize t % 2 ^ 30 = m at *
        generalize u % 2 ^ 30 = n at *
        rw [abs_le] at this
        obtain ⟨i1, i2⟩ := this
        have j1 : (16 * m + ftoa' : ℚ) < 16 * n + ftoa + 1 := by linarith
        have j2 : (16 * n + ftoa : ℚ) < 16 * m + ftoa' + 1 := by linarith
        have k1 : 16 * m + ftoa' < 16 * n + ftoa + 1 := by exact_mod_cast j1
        have k2 : 16 * n + ftoa < 16 * m + ftoa' + 1 := by exact_mod_cast j2
        omega
      have et : tot = tot' := by
        have : (tot : ℚ) = tot' := by linarith
        exact_mod_cast this
      have ec : col = col' ∧ row = row' := by
        unfold onDetector at hx hy
        rcases hchip with rfl | rfl | rfl | rfl <;> simp at hx hy <;> omega
      rw [packets_pixel, packets_pixel]
      unfold pixelWord
      have e1 : t % 2 ^ 14 = u % 2 ^ 14 := by omega
      have e2 : t / 2 ^ 14 % 2 ^ 16 = u / 2 ^ 14 % 2 ^ 16 := by omega
      rw [e1, e2, e.2, et, ec.1, ec.2]

/-- Two triggers 2^32 ticks apart have the same line. -/
example : SaysSignal 2 (.trigger 5) (.trigger (127 / 1000000000)) ∧ SaysSignal 2 (.trigger (5 + 2 ^ 32)) (.trigger (127 / 1000000000)) :=
  ⟨.trigger _ _ (by unfold NearNs; norm_num), .trigger _ _ (by unfold NearNs; norm_num)⟩

/-! ## The uninitialised variable -/

theorem packet_fill (v : BitVec 16) (chip : Int) (w : U64) (s r : RefState) (h : refPacket chip w s = .ok r) :
    refPacket chip w { s with spidr := some (s.spidr.getD v) } = .ok { r with spidr := some (r.spidr.getD v) } := by
  unfold refPacket at *
  simp only at *
  by_cases h1 : (w >>> 60).toNat = 6
  · rw [if_pos h1, Res.ok.injEq] at *; subst h; rfl
  rw [if_neg h1] at *
  by_cases h2 : (w >>> 60).toNat = 11
  · rw [if_pos h2, Res.ok.injEq] at *; subst h; rfl
  rw [if_neg h2] at *
  by_cases h3 : (w >>> 60).toNat = 4
  · rw [if_pos h3] at *
    by_cases h4 : (w >>> 56) &&& 0xF#64 = 0x4#64
    · rw [if_pos h4, Res.ok.injEq] at *; subst h; rfl
    rw [if_neg h4] at *
    by_cases h5 : (w >>> 56) &&& 0xF#64 = 0x5#64
    · rw [if_pos h5] at *
      obtain ⟨a, b, spidr, d, e⟩ := s
      cases spidr with
      | none => exact absurd h (by simp)
      | some t =>
        simp only [Option.getD_some, Res.ok.injEq] at h ⊢
        rw [← h]
        rfl
    · rw [if_neg h5, Res.ok.injEq] at *; subst h; rfl
  · rw [if_neg h3, Res.ok.injEq] at *; subst h; rfl

theorem packets_fill (v : BitVec 16) (ws : List U64) (chip : Int) (n k : Nat) (s r : RefState) (h : refPackets ws chip n k s = .ok r) :
    refPackets ws chip n k { s with spidr := some (s.spidr.getD v) } = .ok { r with spidr := some (r.spidr.getD v) } := by
  induction n generalizing k s with
  | zero => rw [refPackets, Res.ok.injEq] at h; subst h; rfl
  | succ n ih =>
    rw [refPackets] at h ⊢
    cases hw : ws[k]? with
    | none => rw [hw] at h; exact absurd h (by simp)
    | some w =>
      rw [hw] at h
      simp only at h ⊢
      cases hp : refPacket chip w s with
      | ok t =>
        rw [packet_fill v chip w s t hp]
        rw [hp] at h
        exact ih _ _ h
      | _ => rw [hp] at h; exact absurd h (by simp [Res.bind])

theorem loop_fill (v : BitVec 16) (ws : List U64) (fuel i : Nat) (s r : RefState) (h : refLoop ws fuel i s = .ok r) :
    refLoop ws fuel i { s with spidr := some (s.spidr.getD v) } = .ok { r with spidr := some (r.spidr.getD v) } := by
  induction fuel generalizing i s with
  | zero => rw [refLoop, Res.ok.injEq] at h; subst h; rfl
  | succ n ih =>
    rw [refLoop] at h ⊢
    cases hw : ws[i]? with
    | none =>
      rw [hw] at h
      simp only [Res.ok.injEq] at h
      subst h; rfl
    | some w =>
      rw [hw] at h
      simp only at h ⊢
      by_cases hh : isHeader w
      · rw [if_pos hh] at h ⊢
        cases hp : refPackets ws (headerChip w) (headerPackets w) (i + 1) s with
        | ok t =>
          rw [packets_fill v _ _ _ _ s t hp]
          rw [hp] at h
          exact ih _ _ h
        | _ => rw [hp] at h; exact absurd h (by simp [Res.bind])
      · rw [if_neg hh] at h ⊢
        exact ih _ _ h

/-- C109: where the program is defined, on any bytes, it writes the same lines for every value of the variable. -/
theorem c109_defined (v : BitVec 16) (file : Bytes) (s : RefState) (h : refRun file = .ok s) :
    ∃ s', refRunFrom v file = .ok s' ∧ s'.lines = s.lines := by
  unfold refRun at h
  unfold refRunFrom
  split_ifs at * with hl
  have := loop_fill v _ _ _ _ _ h
  exact ⟨_, this, rfl⟩

/-- C109 fails for an input with the name of the output: the program empties it first. -/
theorem c109_false_name (v : BitVec 16) (args : List (List Char)) (files : List Char → Option Bytes) :
    refMain v ("converted.txt".toList :: args) files = .ok (some []) := by
  unfold refMain refRunFrom
  simp [refLoop, wordsOf, Res.bind, RefState.init]

/-- A missing input also leaves an empty text; without arguments nothing is written. -/
theorem c109_missing (v : BitVec 16) (name : List Char) (args : List (List Char)) (files : List Char → Option Bytes) (h : files name = none) :
    refMain v (name :: args) files = .ok (some []) ∧ refMain v [] files = .ok none := by
  refine ⟨?_, rfl⟩
  by_cases hn : name = "converted.txt".toList
  · rw [hn]; exact c109_false_name v args files
  · unfold refMain
    simp only [if_neg hn, h]

/-- A detector of two chips: the conditions hold, and the text is this one. -/
example : (∀ r ∈ [⟨0, [.clock 5000000, .trigger 12345, .pixel 20000 17 200 33 5]⟩, (⟨3, [.pixel 30000 0 255 1 15]⟩ : Readout)], r.Fits) ∧
    (∀ r ∈ [⟨0, [.clock 5000000, .trigger 12345, .pixel 20000 17 200 33 5]⟩, (⟨3, [.pixel 30000 0 255 1 15]⟩ : Readout)],
      ∀ s ∈ r.signals, SignalOk s) ∧
    (∀ r, refMain 7 ["in.tpx3".toList] (fun _ => some (detectorFile
      [⟨0, [.clock 5000000, .trigger 12345, .pixel 20000 17 200 33 5]⟩, ⟨3, [.pixel 30000 0 255 1 15]⟩])) = r →
      r = .ok (some (" Global time: 0.125\n0.000308626818847656\n277  200  0.000500015625  825\n0  255  0.00075  25\n".toList))) := by
  refine ⟨?_, ?_, ?_⟩
  · simp only [List.mem_cons, List.not_mem_nil, or_false]
    rintro r (rfl | rfl) <;> exact ⟨by decide, by decide⟩
  · simp [SignalOk, PixelOk]
  · rintro r rfl
    decide +kernel

end Verif.Props
