import Verif.Props.Reference
import Verif.Props.LegacyStream
import Mathlib.Tactic.IntervalCases

/-!
# C80: the times of the triggers in the manufacturer's text; C58: how many hits `fastParseTPX3Raw` returns
-/

namespace Verif.Props

open Verif Verif.Spec

theorem refFine_eq (w : U64) (h1 : 1 ≤ field w 5 4) (h2 : field w 5 4 ≤ 12) :
    (refFine w).toNat = 512 * field w 9 3 + (field w 5 4 - 1) * 512 / 12 := by
  have hf : (w >>> 5) &&& 0xF#64 = BitVec.ofNat 64 (field w 5 4) := by
    apply BitVec.eq_of_toNat_eq
    unfold field
    bits_to_nat
    omega
  have he : (w &&& 0xE00#64).toNat = 512 * field w 9 3 := by
    have := and_mask w.toNat 3 9
    rw [BitVec.toNat_and]
    unfold field
    rw [Nat.mul_comm]
    exact this
  have key : ∀ f : Nat, 1 ≤ f → f ≤ 12 →
      ((((BitVec.ofNat 64 f - 1#64) <<< 9) / 12#64) &&& 0x1FF#64).toNat = (f - 1) * 512 / 12 := by
    intro f g1 g2
    interval_cases f <;> decide
  unfold refFine
  simp only
  rw [hf, BitVec.toNat_or, he, key _ h1 h2]
  exact or_eq_add _ _ 9 (by omega) (by omega)

theorem rnd_near {q : ℚ} (h : q = 0 ∨ (2 : ℚ) ^ (-100 : ℤ) ≤ q) : |rndQ q - q| ≤ q * 2 ^ (-53 : ℤ) := by
  rcases h with rfl | h
  · have := rndQ_int (n := 0) (by norm_num)
    simp only [Int.cast_zero] at this
    rw [this]; simp
  · have hp : 0 < q := lt_of_lt_of_le (two_zpow_pos _) h
    have := abs_rndQ_sub_le (q := q) (by
      rw [abs_of_pos hp]
      exact le_trans (zpow_le_zpow_right₀ (by norm_num) (by norm_num)) h)
    rwa [abs_of_pos hp] at this

theorem ofRat_upTo {q : ℚ} (h0 : 0 ≤ q) (h : q ≤ 2 ^ 100) : F64.ofRat q = .fin (rndQ q) := by
  apply F64.ofRat_fin
  rw [abs_of_nonneg h0]
  refine le_trans h ?_
  have : (2 : ℚ) ^ 100 = 2 ^ (100 : ℤ) := by norm_num
  rw [this]
  exact zpow_le_zpow_right₀ (by norm_num) (by norm_num)

/-- Errors of the additions and multiplications. -/
theorem trigger_rounding (C F : ℕ) (T c25 c1 : ℚ) (k1 : |c25 - 25 / 1000000000| ≤ 25 / 1000000000 * 2 ^ (-53 : ℤ))
    (k2 : |c1 - 1 / 1000000000| ≤ 1 / 1000000000 * 2 ^ (-53 : ℤ)) (b1 : C < 2 ^ 32) (hFlt : F < 4096)
    (hns : T - (25 * (C : ℚ) + F * (25 / 4096)) ≤ 25 / 4096 ∧ 0 ≤ T - (25 * (C : ℚ) + F * (25 / 4096))) :
    ∃ t, F64.add (F64.mul (.fin (C : ℚ)) (.fin c25))
      (F64.mul (.fin ((F : ℚ) * (25 / 4096))) (.fin c1)) = .fin t ∧ 0 ≤ t ∧ |t * 1000000000 - T| ≤ 1 / 100 := by
  have e53 : (2 : ℚ) ^ (-53 : ℤ) = 1 / 9007199254740992 := by norm_num
  have em100 : (2 : ℚ) ^ (-100 : ℤ) ≤ 1 / 10 ^ 20 := by norm_num
  rw [e53, abs_le] at k1 k2
  simp only [F64.mul, F64.add]
  have hCq : (C : ℚ) ≤ 4294967296 := by exact_mod_cast b1.le
  have hC0 : (0 : ℚ) ≤ (C : ℚ) := by positivity
  have hF0 : (0 : ℚ) ≤ (F : ℚ) := by positivity
  have hFq : (F : ℚ) ≤ 4096 := by exact_mod_cast hFlt.le
  have hCz : (C : ℚ) = 0 ∨ (1 : ℚ) ≤ (C : ℚ) := by
    rcases Nat.eq_zero_or_pos (C) with h | h
    · left; exact_mod_cast h
    · right; exact_mod_cast h
  have hFz : (F : ℚ) = 0 ∨ (1 : ℚ) ≤ (F : ℚ) := by
    rcases Nat.eq_zero_or_pos F with h | h
    · left; exact_mod_cast h
    · right; exact_mod_cast h
  have a1 := rnd_near (q := C * c25) (by
    rcases hCz with h | h
    · left; rw [h, zero_mul]
    · right
      refine em100.trans ?_
      have : (1 : ℚ) / 10 ^ 20 ≤ c25 := by linarith [k1.1]
      calc (1 : ℚ) / 10 ^ 20 ≤ c25 := this
        _ = 1 * c25 := by ring
        _ ≤ C * c25 := by apply mul_le_mul_of_nonneg_right h; linarith [k1.1])
  have a2 := rnd_near (q := (F : ℚ) * (25 / 4096) * c1) (by
    rcases hFz with h | h
    · left; rw [h]; ring
    · right
      refine em100.trans ?_
      have h3 : (1 : ℚ) / 10 ^ 18 ≤ 25 / 4096 * c1 := by linarith [k2.1]
      calc (1 : ℚ) / 10 ^ 20 ≤ 1 * (25 / 4096 * c1) := by linarith
        _ ≤ F * (25 / 4096 * c1) := by apply mul_le_mul_of_nonneg_right h; linarith
        _ = _ := by ring)
  have p1 : C * c25 ≤ 109 := by nlinarith [k1.2]
  have p1' : 0 ≤ C * c25 := mul_nonneg hC0 (by linarith [k1.1])
  have p2 : (F : ℚ) * (25 / 4096) * c1 ≤ 1 := by nlinarith [k2.2]
  have p2' : 0 ≤ (F : ℚ) * (25 / 4096) * c1 := mul_nonneg (by positivity) (by linarith [k2.1])
  have d1 : |C * c25 - C * (25 / 1000000000)| ≤ 108 * (1 / 9007199254740992) := by
    rw [abs_le]; constructor <;> nlinarith [k1.1, k1.2]
  have d2 : |(F : ℚ) * (25 / 4096) * c1 - (F : ℚ) * (25 / 4096) * (1 / 1000000000)| ≤ 1 / 9007199254740992 := by
    rw [abs_le]; constructor <;> nlinarith [k2.1, k2.2]
  rw [ofRat_upTo p1' (by linarith), ofRat_upTo p2' (by linarith)]
  simp only
  rw [e53, abs_le] at a1 a2
  rw [abs_le] at d1 d2
  have hsum0 : rndQ (C * c25) + rndQ ((F : ℚ) * (25 / 4096) * c1) = 0 ∨
      (2 : ℚ) ^ (-100 : ℤ) ≤ rndQ (C * c25) + rndQ ((F : ℚ) * (25 / 4096) * c1) := by
    have n1 := rndQ_nonneg p1'
    have n2 := rndQ_nonneg p2'
    rcases hCz with h | h
    · rcases hFz with h' | h'
      · left
        rw [h, h']
        have := rndQ_int (n := 0) (by norm_num)
        simp only [Int.cast_zero] at this
        simp only [zero_mul, this, add_zero]
      · right
        refine em100.trans ?_
        have h3 : (1 : ℚ) / 10 ^ 15 ≤ 25 / 4096 * c1 := by linarith [k2.1]
        have h4 : 1 * (25 / 4096 * c1) ≤ F * (25 / 4096 * c1) := by apply mul_le_mul_of_nonneg_right h'; linarith
        nlinarith [a2.1]
    · right
      refine em100.trans ?_
      have h3 : (1 : ℚ) / 10 ^ 10 ≤ c25 := by linarith [k1.1]
      have h4 : 1 * c25 ≤ C * c25 := by apply mul_le_mul_of_nonneg_right h; linarith
      nlinarith [a1.1]
  have a3 := rnd_near hsum0
  have hs0 : 0 ≤ rndQ (C * c25) + rndQ ((F : ℚ) * (25 / 4096) * c1) := add_nonneg (rndQ_nonneg p1') (rndQ_nonneg p2')
  generalize rndQ (C * c25) = A at *
  generalize rndQ ((F : ℚ) * (25 / 4096) * c1) = B at *
  rw [ofRat_upTo hs0 (by linarith [a1.2, a2.2])]
  refine ⟨_, rfl, rndQ_nonneg hs0, ?_⟩
  generalize rndQ (A + B) = R at *
  rw [e53, abs_le] at a3
  rw [abs_le]
  constructor <;> linarith [a1.1, a1.2, a2.1, a2.2, a3.1, a3.2, hns.1, hns.2, d1.1, d1.2, d2.1, d2.2]

/-- The number written for a trigger, from the ticks and the fine part as the program computes it. -/
theorem refTrigger_value (w : U64) (T : ℚ) (hns : T - (25 * (field w 12 32 : ℕ) + (refFine w).toNat * (25 / 4096)) ≤ 25 / 4096 ∧
      0 ≤ T - (25 * (field w 12 32 : ℕ) + (refFine w).toNat * (25 / 4096))) :
    ∃ t, refTrigger w = .fin t ∧ 0 ≤ t ∧ |t * 1000000000 - T| ≤ 1 / 100 := by
  have hC : ((w >>> 12) &&& 0xFFFFFFFF#64).toNat = field w 12 32 := by
    unfold field; bits_to_nat
  have b1 : field w 12 32 < 2 ^ 32 := Nat.mod_lt _ (by norm_num)
  have hFlt : (refFine w).toNat < 4096 := c80_trigger_fine w
  unfold refTrigger
  simp only
  rw [hC]
  generalize (refFine w).toNat = F at *
  have hunit : F64.div (F64.ofRat 25) (F64.ofRat 4096) = .fin (25 / 4096) := by
    have e1 : F64.ofRat 25 = .fin 25 := by have := F64.ofRat_int (n := 25) (by norm_num); exact_mod_cast this
    have e2 : F64.ofRat 4096 = .fin 4096 := by have := F64.ofRat_int (n := 4096) (by norm_num); exact_mod_cast this
    rw [e1, e2]
    simp only [F64.div]
    rw [if_neg (by norm_num), ofRat_upTo (by norm_num) (by norm_num), rndQ_of_grid 25 (-12) (by norm_num) (by norm_num) (by norm_num)]
  have hCf : F64.ofInt (field w 12 32) = .fin (field w 12 32 : ℕ) := by
    have := F64.ofInt_exact (n := (field w 12 32 : ℤ)) (by rw [abs_of_nonneg (by omega)]; omega)
    exact_mod_cast this
  have hFf : F64.ofInt F = .fin (F : ℕ) := by
    have := F64.ofInt_exact (n := (F : ℤ)) (by rw [abs_of_nonneg (by omega)]; omega)
    exact_mod_cast this
  have hu : F64.mul (.fin (F : ℕ)) (.fin (25 / 4096)) = .fin ((F : ℚ) * (25 / 4096)) := by
    simp only [F64.mul]
    have hF2 : (F : ℚ) ≤ 4096 := by exact_mod_cast hFlt.le
    rw [ofRat_upTo (by positivity) (by linarith),
      rndQ_of_grid (25 * F) (-12) (by push_cast; norm_num; ring) (by norm_num) (by rw [abs_of_nonneg (by omega)]; omega)]
  rw [hCf, hFf, hunit, hu, ofRat_upTo (q := 25 / 1000000000) (by norm_num) (by norm_num),
    ofRat_upTo (q := 1 / 1000000000) (by norm_num) (by norm_num)]
  have em100 : (2 : ℚ) ^ (-100 : ℤ) ≤ 1 / 10 ^ 20 := by norm_num
  exact trigger_rounding _ _ _ _ _ (rnd_near (.inr (em100.trans (by norm_num)))) (rnd_near (.inr (em100.trans (by norm_num)))) b1 hFlt hns

/-- C80 for the time of a trigger: the number written is the time of the packet, in seconds, to a hundredth of a nanosecond, if the fine part is one
of the twelve that the detector sends. -/
theorem c80_trigger_time (w : U64) (h1 : 1 ≤ field w 5 4) (h2 : field w 5 4 ≤ 12) :
    ∃ t, refTrigger w = .fin t ∧ |t * 1000000000 - triggerNs w| ≤ 1 / 100 := by
  have hF := refFine_eq w h1 h2
  generalize hG : (refFine w).toNat = F at hF
  have hns : triggerNs w - (25 * (field w 12 32 : ℕ) + F * (25 / 4096)) ≤ 25 / 4096 ∧
      0 ≤ triggerNs w - (25 * (field w 12 32 : ℕ) + F * (25 / 4096)) := by
    unfold triggerNs
    have g1 : 12 * ((field w 5 4 - 1) * 512 / 12) ≤ (field w 5 4 - 1) * 512 := Nat.mul_div_le _ _
    have g2 : (field w 5 4 - 1) * 512 < 12 * ((field w 5 4 - 1) * 512 / 12) + 12 := by omega
    have g1' : (12 * (((field w 5 4 - 1) * 512 / 12 : ℕ) : ℚ)) ≤ ((field w 5 4 : ℚ) - 1) * 512 := by
      have : ((12 * ((field w 5 4 - 1) * 512 / 12) : ℕ) : ℚ) ≤ (((field w 5 4 - 1) * 512 : ℕ) : ℚ) := by exact_mod_cast g1
      rw [Nat.cast_mul, Nat.cast_mul, Nat.cast_sub h1] at this
      exact_mod_cast this
    have g2' : ((field w 5 4 : ℚ) - 1) * 512 ≤ (12 * (((field w 5 4 - 1) * 512 / 12 : ℕ) : ℚ)) + 12 := by
      have : (((field w 5 4 - 1) * 512 : ℕ) : ℚ) ≤ ((12 * ((field w 5 4 - 1) * 512 / 12) + 12 : ℕ) : ℚ) := by exact_mod_cast g2.le
      rw [Nat.cast_mul, Nat.cast_sub h1, Nat.cast_add, Nat.cast_mul] at this
      exact_mod_cast this
    have hFq' : (F : ℚ) = 512 * (field w 9 3 : ℕ) + (((field w 5 4 - 1) * 512 / 12 : ℕ) : ℚ) := by
      rw [hF, Nat.cast_add, Nat.cast_mul]
      norm_num
    rw [hFq']
    constructor <;> linarith
  obtain ⟨t, a, -, b⟩ := refTrigger_value w (triggerNs w) (by rw [hG]; exact hns)
  exact ⟨t, a, b⟩

theorem triggerTimes_append (a b : List RefLine) : triggerTimes (a ++ b) = triggerTimes a ++ triggerTimes b :=
  List.filterMap_append

theorem refPacket_triggers (chip : Int) (w : U64) (s s' : RefState) (hs : s.lsb.toNat < 2 ^ 32) (h : refPacket chip w s = .ok s') :
    s'.lsb.toNat < 2 ^ 32 ∧ triggerTimes s'.lines = triggerTimes s.lines ++ if kind w = 6 then [refTrigger w] else [] := by
  by_cases h6 : kind w = 6
  · rw [refPacket_trigger chip w s h6] at h
    injection h with h
    subst h
    rw [if_pos h6]
    exact ⟨hs, triggerTimes_append _ _⟩
  · rw [if_neg h6, List.append_nil]
    by_cases hh : IsHitPacket w
    · rw [refPacket_hit chip w s hh] at h
      injection h with h
      subst h
      exact ⟨hs, (triggerTimes_append _ _).trans (List.append_nil _)⟩
    · by_cases hl : kind w = 4 ∧ field w 56 4 = 4
      · rw [refPacket_low chip w s hl.1 hl.2] at h
        injection h with h
        subst h
        refine ⟨?_, rfl⟩
        bits_to_nat
        omega
      · by_cases hg : IsHighPacket w
        · obtain ⟨g1, g2⟩ := refPacket_high chip w s hg hs
          cases hsp : s.spidr with
          | none =>
            rw [g1 hsp] at h
            simp at h
          | some t =>
            obtain ⟨m, g3⟩ := g2 (by rw [hsp]; simp)
            rw [g3] at h
            injection h with h
            subst h
            exact ⟨hs, (triggerTimes_append _ _).trans (List.append_nil _)⟩
        · rw [refPacket_other chip w s h6 hh hl hg] at h
          injection h with h
          subst h
          exact ⟨hs, rfl⟩

theorem refAll_triggers (ps : List (Int × U64)) (s s' : RefState) (hs : s.lsb.toNat < 2 ^ 32) (h : refAll ps s = .ok s') :
    triggerTimes s'.lines = triggerTimes s.lines ++ ((ps.map Prod.snd).filter fun w => kind w = 6).map refTrigger := by
  induction ps generalizing s with
  | nil =>
    injection h with h
    subst h
    simp
  | cons p ps ih =>
    unfold refAll at h
    cases hp : refPacket p.1 p.2 s with
    | ub u => rw [hp] at h; simp [Res.bind] at h
    | throws m => rw [hp] at h; simp [Res.bind] at h
    | ok s1 =>
      rw [hp] at h
      obtain ⟨g1, g2⟩ := refPacket_triggers p.1 p.2 s s1 hs hp
      rw [ih s1 g1 h, g2, List.map_cons]
      by_cases h6 : kind p.2 = 6
      · rw [if_pos h6, List.filter_cons_of_pos (by simpa using h6), List.map_cons, List.append_assoc]
        rfl
      · rw [if_neg h6, List.filter_cons_of_neg (by simpa using h6), List.append_nil]

/-- C80 for the triggers of a file: the text has one line for every trigger packet, in order, and it is the time of the packet to a
hundredth of a nanosecond. -/
theorem c80_trigger_lines (cs : List Chunk) (hcs : ∀ c ∈ cs, c.WellFormed) (s : RefState) (h : refRun (streamBytes cs) = .ok s) :
    List.Forall₂ (fun w t => 1 ≤ field w 5 4 → field w 5 4 ≤ 12 → ∃ q, t = F64.fin q ∧ |q * 1000000000 - triggerNs w| ≤ 1 / 100)
      (((chunkPackets cs).map Prod.snd).filter fun w => kind w = 6) (triggerTimes s.lines) := by
  rw [refRun_stream cs hcs] at h
  rw [refAll_triggers _ _ _ (by decide) h, show triggerTimes RefState.init.lines = [] from rfl, List.nil_append,
    List.forall₂_map_right_iff, List.forall₂_same]
  exact fun w _ h1 h2 => c80_trigger_time w h1 h2

/-- A trigger at 123456 ticks, 5 eighths and 7 twelfths. -/
example : ∃ s, refRun (streamBytes [⟨0x0008000033585054#64,
      [BitVec.ofNat 64 (0x6F * 2 ^ 56 + 123456 * 2 ^ 12 + 5 * 2 ^ 9 + 8 * 2 ^ 5)]⟩]) = .ok s ∧ (triggerTimes s.lines).length = 1 ∧
    triggerNs (BitVec.ofNat 64 (0x6F * 2 ^ 56 + 123456 * 2 ^ 12 + 5 * 2 ^ 9 + 8 * 2 ^ 5)) = 3086400 + 125 / 8 + 175 / 96 := by
  refine ⟨⟨0, 0, none, 1, [.trigger (refTrigger (BitVec.ofNat 64 (0x6F * 2 ^ 56 + 123456 * 2 ^ 12 + 5 * 2 ^ 9 + 8 * 2 ^ 5)))]⟩,
    by decide +kernel, rfl, ?_⟩
  have h1 : field (BitVec.ofNat 64 (0x6F * 2 ^ 56 + 123456 * 2 ^ 12 + 5 * 2 ^ 9 + 8 * 2 ^ 5)) 12 32 = 123456 := by decide
  have h2 : field (BitVec.ofNat 64 (0x6F * 2 ^ 56 + 123456 * 2 ^ 12 + 5 * 2 ^ 9 + 8 * 2 ^ 5)) 9 3 = 5 := by decide
  have h3 : field (BitVec.ofNat 64 (0x6F * 2 ^ 56 + 123456 * 2 ^ 12 + 5 * 2 ^ 9 + 8 * 2 ^ 5)) 5 4 = 8 := by decide
  unfold triggerNs
  rw [h1, h2, h3]
  norm_num

/-! ## C58: the number of hits -/

theorem fastHeaders_eq (buf : Bytes) :
    fastHeaders buf = (if buf.length % 8 = 0 then (wordsOf buf).dropLast else wordsOf buf).filter fun w => StartsTPX w := by
  have hr : (List.range (buf.length / 8)).filter (fun k => 8 * k + 8 < buf.length) =
      List.range (if buf.length % 8 = 0 then buf.length / 8 - 1 else buf.length / 8) := by
    split_ifs with h
    · have : ∀ n, (List.range n).filter (fun k => k + 1 < n) = List.range (n - 1) := by
        intro n
        cases n with
        | zero => rfl
        | succ n =>
          rw [List.range_succ, List.filter_append, List.filter_eq_self.mpr (by simp)]
          simp
      rw [← this (buf.length / 8)]
      apply List.filter_congr
      intro k _
      rw [decide_eq_decide]
      omega
    · apply List.filter_eq_self.mpr
      intro k hk
      rw [List.mem_range] at hk
      simp only [decide_eq_true_eq]
      omega
  unfold fastHeaders
  rw [hr]
  have hm : ∀ n, n ≤ buf.length / 8 → (List.range n).filterMap (fun k => wordAt buf (8 * k)) =
      (List.range n).map fun k => BitVec.ofNat 64 (leNat ((buf.drop (8 * k)).take 8)) := by
    intro n hn
    rw [← List.filterMap_eq_map]
    apply List.filterMap_congr
    intro k hk
    rw [List.mem_range] at hk
    unfold wordAt
    rw [if_pos (by omega)]
    rfl
  rw [hm _ (by split_ifs <;> omega)]
  have hw : (List.range (if buf.length % 8 = 0 then buf.length / 8 - 1 else buf.length / 8)).map
      (fun k => BitVec.ofNat 64 (leNat ((buf.drop (8 * k)).take 8))) =
      if buf.length % 8 = 0 then (wordsOf buf).dropLast else wordsOf buf := by
    unfold wordsOf
    split_ifs with h
    · rw [← List.map_dropLast]
      congr 1
      cases buf.length / 8 with
      | zero => rfl
      | succ n => rw [List.range_succ, List.dropLast_concat]; rfl
    · rfl
  rw [hw]
  apply List.filter_congr
  intro w _
  rw [Bool.eq_iff_iff, isHeader_iff_starts, decide_eq_true_eq]

/-- C58, the number of hits: one for every packet that a header announces; the headers are looked for in all words, but in a buffer of whole
words not in the last one.  The sum is undefined from 2^31 on. -/
theorem c58_count (buf : Bytes) (n : Nat)
    (hn : n = (((if buf.length % 8 = 0 then (wordsOf buf).dropLast else wordsOf buf).filter fun w => StartsTPX w).map
      fun w => field w 48 16 / 8).sum) :
    (n < 2 ^ 31 → ∃ hits, fastParseTPX3Raw buf = .ok hits ∧ hits.length = n) ∧
    (2 ^ 31 ≤ n → fastParseTPX3Raw buf = .ub .signedOverflow) := by
  have hsum : ((fastHeaders buf).map headerPackets).sum = n := by
    rw [hn, fastHeaders_eq]
    congr 2
    funext w
    exact headerPackets_field w
  unfold fastParseTPX3Raw
  simp only
  rw [hsum]
  constructor
  · intro h
    rw [if_pos h]
    exact ⟨_, rfl, List.length_replicate⟩
  · intro h
    rw [if_neg (by omega)]

/-- Two packets announced, and a header in the last word that is not looked at. -/
example : ∃ hits, fastParseTPX3Raw ([0x0010000033585054#64, 0xB000000000000000#64, 0x0008000033585054#64].flatMap bytesOf) = .ok hits ∧
    hits.length = 2 :=
  (c58_count _ 2 (by decide +kernel)).1 (by norm_num)

end Verif.Props
