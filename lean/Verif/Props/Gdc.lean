import Verif.Model.Gdc
import Verif.Spec.Gdc
import Verif.Lemmas.Scan
import Verif.Lemmas.Tpx3

/-!
# The GDC extractor (C23)
-/

namespace Verif.Props

open Verif Verif.Spec

theorem isTPX3_iff (w : U64) : isTPX3 w = true ↔ StartsTPX3 w := by
  unfold isTPX3 StartsTPX3 field
  simp only [Bool.and_eq_true, beq_iff_eq, ← BitVec.toNat_inj, byteOf_toNat, BitVec.reduceToNat]
  simp only [Nat.reducePow, Nat.reduceMul]
  omega

/-- The loop on a list of words; `o` is the absolute offset of the first one. -/
def gdcWords : Nat → Int → GdcProc → List U64 → GdcProc × List GdcRecord
  | _, _, p, [] => (p, [])
  | o, chip, p, w :: ws =>
    ((gdcWords (o + 8) (gdcStep 0 o w chip p).1 (gdcStep 0 o w chip p).2.1 ws).1,
     (gdcStep 0 o w chip p).2.2 ++ (gdcWords (o + 8) (gdcStep 0 o w chip p).1 (gdcStep 0 o w chip p).2.1 ws).2)

theorem gdcStep_base (base off : Nat) (w : U64) (chip : Int) (p : GdcProc) :
    gdcStep base off w chip p = gdcStep 0 (base + off) w chip p := by
  unfold gdcStep; simp

theorem gdcLoop_eq (data : Bytes) (base fuel off : Nat) (chip : Int) (p : GdcProc) (h : (data.length - off) / 8 < fuel) :
    gdcLoop data base fuel off chip p = .ok (gdcWords (base + off) chip p (wordsOf (data.drop off))) := by
  induction fuel generalizing off chip p with
  | zero => omega
  | succ fuel ih =>
    rw [gdcLoop]
    by_cases h8 : off + 8 ≤ data.length
    · rw [if_pos h8, wordAt_eq _ _ h8, wordsOf_cons _ (by rw [List.length_drop]; omega), List.drop_drop]
      simp only
      rw [ih (off + 8) _ _ (by omega), gdcStep_base]
      rfl
    · rw [if_neg h8, wordsOf_short _ (by rw [List.length_drop]; omega)]
      rfl

theorem processChunk_eq (p : GdcProc) (data : Bytes) (base : Nat) :
    p.processChunk data base = .ok (gdcWords base (-1) p (wordsOf data)) := by
  unfold GdcProc.processChunk
  rw [gdcLoop_eq _ _ _ _ _ _ (by omega)]
  simp

/-- A record as the specification writes it. -/
def GdcRecord.plain (r : GdcRecord) : Int × Nat × Nat := (r.chip, r.value.toNat, r.offset)

/-- The processor after the first `i` words of `ws`. -/
structure GdcAt (ws : List U64) (i : Nat) (p : GdcProc) : Prop where
  low : p.timer.toNat = (timesG ⟨0, 0, 0⟩ ((ws.take i).filter fun w => ¬ StartsTPX3 w)).low
  gdc : p.gdc.toNat = globalTime (ws.take i)
  small : p.timer.toNat < 2 ^ 32

theorem chipBefore_succ (ws : List U64) (a i : Nat) (ha : a ≤ i) :
    chipBefore ws a (i + 1) =
      if StartsTPX3 (ws.getD i 0) then some (headerChipId (ws.getD i 0)) else chipBefore ws a i := by
  unfold chipBefore
  rw [List.range_succ, List.filter_append]
  by_cases h : StartsTPX3 (ws.getD i 0)
  · rw [if_pos h, List.filter_cons_of_pos (by rw [decide_eq_true_eq]; exact ⟨ha, h⟩), List.filter_nil, List.getLast?_append]
    simp
  · rw [if_neg h, List.filter_cons_of_neg (by rw [decide_eq_true_eq]; exact fun g => h g.2), List.filter_nil, List.append_nil]

theorem gdcStep_spec (ws : List U64) (a i : Nat) (ha : a ≤ i) (hi : i < ws.length) (p : GdcProc) (chip : Int)
    (hp : GdcAt ws i p) (hc : chip = (chipBefore ws a i).getD (-1)) :
    GdcAt ws (i + 1) (gdcStep 0 (8 * i) ws[i] chip p).2.1 ∧
    (gdcStep 0 (8 * i) ws[i] chip p).1 = (chipBefore ws a (i + 1)).getD (-1) ∧
    (gdcStep 0 (8 * i) ws[i] chip p).2.2.map GdcRecord.plain = (recordAt ws a i).toList := by
  have hget : ws.getD i 0 = ws[i] := by simp [List.getD, hi]
  have htake : ws.take (i + 1) = ws.take i ++ [ws[i]] := by rw [List.take_succ_eq_append_getElem hi]
  rw [chipBefore_succ ws a i ha, hget]
  generalize hw : ws[i] = w at *
  have hrec : recordAt ws a i = match chipBefore ws a i with
      | none => none
      | some chip => if IsHighHalf w ∧ 0 ≤ chip ∧ globalTime (ws.take (i + 1)) ≠ 0 then
        some (chip, globalTime (ws.take (i + 1)), 8 * i) else none := by
    unfold recordAt; rw [hget]; cases chipBefore ws a i <;> rfl
  by_cases ht : StartsTPX3 w
  · have hstep : gdcStep 0 (8 * i) w chip p = ((byteOf w 4).toInt, p, []) := by
      unfold gdcStep; rw [if_pos ((isTPX3_iff w).mpr ht)]
    have hf : (ws.take (i + 1)).filter (fun w => ¬ StartsTPX3 w) = (ws.take i).filter (fun w => ¬ StartsTPX3 w) := by
      rw [htake, List.filter_append, List.filter_cons_of_neg (by simp [ht])]; simp
    rw [hstep, if_pos ht, hrec]
    refine ⟨⟨?_, ?_, hp.small⟩, ?_, ?_⟩
    · rw [hf]; exact hp.low
    · unfold globalTime; rw [hf]; exact hp.gdc
    · exact headerChip_eq w
    · have : ¬ IsHighHalf w := fun h => h.2.2 ht
      cases chipBefore ws a i <;> simp [this]
  · have hf : (ws.take (i + 1)).filter (fun w => ¬ StartsTPX3 w) =
        (ws.take i).filter (fun w => ¬ StartsTPX3 w) ++ [w] := by
      rw [htake, List.filter_append, List.filter_cons_of_pos (by simp [ht])]; simp
    have ht' : isTPX3 w = false := by rw [← Bool.not_eq_true, isTPX3_iff]; exact ht
    obtain ⟨T, hT⟩ : ∃ T, T = timesG ⟨0, 0, 0⟩ ((ws.take i).filter fun w => ¬ StartsTPX3 w) := ⟨_, rfl⟩
    have hT1 : timesG ⟨0, 0, 0⟩ ((ws.take (i + 1)).filter fun w => ¬ StartsTPX3 w) = nextG w T := by
      rw [hf, hT]; unfold timesG; rw [List.foldl_append]; rfl
    have hG1 : globalTime (ws.take (i + 1)) = (nextG w T).gdc := by unfold globalTime; rw [hT1]
    have hlow : p.timer.toNat = T.low := by rw [hT]; exact hp.low
    have hgdc : p.gdc.toNat = T.gdc := by rw [hT]; exact hp.gdc
    by_cases hg : IsGlobalPacket w
    · have hnt : ¬ IsTriggerPacket w := fun h => (trigger_not_hit w h).2 hg
      have hnext : (nextG w T).low = (if field w 56 4 = 4 then field w 16 32 else T.low) ∧
          (nextG w T).gdc = (if field w 56 4 = 5 ∧ field w 16 16 * 2 ^ 32 + T.low ≠ 0 then
            field w 16 16 * 2 ^ 32 + T.low else T.gdc) := by
        unfold nextG
        rw [if_neg hnt, if_pos hg]
        split_ifs with h4 h5 h5 <;> first | exact ⟨rfl, rfl⟩ | omega
      obtain ⟨u1, u2⟩ := updateGdc_spec w p.timer p.gdc hp.small
      have hsel : (((((w >>> 16) &&& 0xFFFFFFFFFFFF#64) >>> 40) &&& 0xF#64) == 0x5#64) = decide (field w 56 4 = 5) := by
        have : ((((w >>> 16) &&& 0xFFFFFFFFFFFF#64) >>> 40) &&& 0xF#64).toNat = field w 56 4 := by
          unfold field; bits_to_nat; omega
        rw [Bool.eq_iff_iff, beq_iff_eq, ← BitVec.toNat_inj, this]
        simp
      have hz : (updateGdc w p.timer p.gdc).2 ≠ 0 ↔ globalTime (ws.take (i + 1)) ≠ 0 := by
        rw [hG1, hnext.2, ← hlow, ← hgdc, ← u2, Ne, Ne, ← BitVec.toNat_inj]; rfl
      have hval : (updateGdc w p.timer p.gdc).2.toNat = globalTime (ws.take (i + 1)) := by
        rw [hG1, hnext.2, ← hlow, ← hgdc, ← u2]
      have hstep : gdcStep 0 (8 * i) w chip p = (chip, ⟨(updateGdc w p.timer p.gdc).1, (updateGdc w p.timer p.gdc).2⟩,
          if field w 56 4 = 5 ∧ globalTime (ws.take (i + 1)) ≠ 0 ∧ 0 ≤ chip then
            [⟨chip, (updateGdc w p.timer p.gdc).2, 8 * i⟩] else []) := by
        unfold gdcStep
        rw [ht', if_neg (by simp), if_pos ((isGdc_iff w).mpr hg)]
        simp only [hsel, decide_eq_true_eq, Nat.zero_add]
        simp only [hz]
      rw [hstep, if_neg ht]
      refine ⟨⟨?_, ?_, ?_⟩, hc, ?_⟩
      · simp only [hT1, hnext.1, u1, hlow]
      · exact hval
      · simp only
        rw [u1]
        have hb : field w 16 32 < 2 ^ 32 := by unfold field; exact Nat.mod_lt _ (by positivity)
        have := hp.small
        split_ifs <;> omega
      · rw [hrec]
        have hh : IsHighHalf w ↔ field w 56 4 = 5 := by unfold IsHighHalf; simp [hg, ht]
        cases hcb : chipBefore ws a i with
        | none =>
          rw [hcb] at hc
          simp only [Option.getD_none] at hc
          simp only [Option.toList_none]
          rw [if_neg (by rw [hc]; omega)]
          rfl
        | some ch =>
          rw [hcb] at hc
          simp only [Option.getD_some] at hc
          subst hc
          simp only [hh]
          by_cases hcond : field w 56 4 = 5 ∧ globalTime (ws.take (i + 1)) ≠ 0 ∧ 0 ≤ chip
          · rw [if_pos hcond, if_pos ⟨hcond.1, hcond.2.2, hcond.2.1⟩]
            simp [GdcRecord.plain, hval]
          · rw [if_neg hcond, if_neg fun h => hcond ⟨h.1, h.2.2, h.2.1⟩]
            rfl
    · have hstep : gdcStep 0 (8 * i) w chip p = (chip, p, []) := by
        unfold gdcStep
        rw [ht', if_neg (by simp), if_neg (by rw [isGdc_iff]; exact hg)]
      have hnext : (nextG w T).low = T.low ∧ (nextG w T).gdc = T.gdc := by
        unfold nextG
        split_ifs <;> exact ⟨rfl, rfl⟩
      rw [hstep, if_neg ht, hrec]
      refine ⟨⟨?_, ?_, hp.small⟩, hc, ?_⟩
      · rw [hT1, hnext.1]; exact hlow
      · rw [hG1, hnext.2]; exact hgdc
      · have : ¬ IsHighHalf w := fun h => hg h.1
        cases chipBefore ws a i <;> simp [this]

theorem gdcWords_spec (ws : List U64) (a : Nat) (rest : List U64) (i : Nat) (ha : a ≤ i) (n : Nat)
    (hrest : (ws.drop i).take n = rest) (hn : i + n ≤ ws.length) (p : GdcProc) (chip : Int)
    (hp : GdcAt ws i p) (hc : chip = (chipBefore ws a i).getD (-1)) :
    GdcAt ws (i + n) (gdcWords (8 * i) chip p rest).1 ∧
    (gdcWords (8 * i) chip p rest).2.map GdcRecord.plain = (List.range' i n).filterMap (recordAt ws a) := by
  induction n generalizing i p chip rest with
  | zero =>
    rw [List.take_zero] at hrest
    subst hrest
    exact ⟨hp, rfl⟩
  | succ n ih =>
    have hi : i < ws.length := by omega
    rw [List.drop_eq_getElem_cons hi, List.take_succ_cons] at hrest
    subst hrest
    obtain ⟨s1, s2, s3⟩ := gdcStep_spec ws a i ha hi p chip hp hc
    obtain ⟨r1, r2⟩ := ih ((ws.drop (i + 1)).take n) (i + 1) (by omega) rfl (by omega) _ _ s1 s2
    have e : 8 * i + 8 = 8 * (i + 1) := by omega
    rw [gdcWords, e]
    refine ⟨by rw [show i + (n + 1) = i + 1 + n by omega]; exact r1, ?_⟩
    rw [List.map_append, s3, r2, List.range'_succ, List.filterMap_cons]
    cases recordAt ws a i <;> rfl

/-- A piece starts without a known chip. -/
theorem chipBefore_start (ws : List U64) (a : Nat) : chipBefore ws a a = none := by
  unfold chipBefore
  rw [List.filter_eq_nil_iff.mpr]
  · rfl
  · intro h hh
    have := List.mem_range.mp hh
    simp; omega

/-- Pieces of whole words, the last one possibly with an incomplete word at its end. -/
theorem processChunks_spec (ws : List U64) (ds : List Bytes) (a : Nat) (p : GdcProc) (hp : GdcAt ws a p)
    (hal : ∀ d ∈ ds.dropLast, d.length % 8 = 0) (hws : wordsOf ds.flatten = ws.drop a) :
    ∃ rs, p.processChunks ds (8 * a) = .ok rs ∧
      rs.map GdcRecord.plain = recordsCut ws a (ds.map fun d => d.length / 8) := by
  induction ds generalizing a p with
  | nil => exact ⟨[], rfl, rfl⟩
  | cons d ds ih =>
    have hlen := congrArg List.length hws
    rw [wordsOf_length, List.flatten_cons, List.length_append, List.length_drop] at hlen
    have hpre : ((ws.drop a).take (d.length / 8)) = wordsOf d := by
      rw [← hws, List.flatten_cons, ← wordsOf_take _ _ (by rw [List.length_append]; omega)]
      rcases Nat.lt_or_ge 0 (d.length % 8) with h | h
      · have hds : ds = [] := by
          by_contra hne
          have : d ∈ (d :: ds).dropLast := by rw [List.dropLast_cons_of_ne_nil hne]; simp
          have := hal d this
          omega
        subst hds
        simp only [List.flatten_nil, List.append_nil]
        rw [wordsOf_take _ _ (Nat.le_refl _), List.take_of_length_le (by rw [wordsOf_length])]
      · rw [show 8 * (d.length / 8) = d.length by omega, List.take_left]
    by_cases hz : ds = []
    · subst hz
      have hle : a + d.length / 8 ≤ ws.length ∨ d.length / 8 = 0 := by
        simp only [List.flatten_nil, List.length_nil] at hlen
        omega
      rw [GdcProc.processChunks, processChunk_eq]
      simp only [bind, Res.bind, GdcProc.processChunks]
      refine ⟨_, rfl, ?_⟩
      rw [List.append_nil, List.map_cons, List.map_nil, recordsCut, recordsCut, List.append_nil, recordsOf,
        Nat.add_sub_cancel_left]
      rcases hle with hle | h0
      · exact (gdcWords_spec ws a (wordsOf d) a (Nat.le_refl _) (d.length / 8) hpre hle p (-1) hp
          (by rw [chipBefore_start]; rfl)).2
      · rw [← hpre, h0]; rfl
    · have hd8 : d.length % 8 = 0 := hal d (by rw [List.dropLast_cons_of_ne_nil hz]; simp)
      by_cases hle : a + d.length / 8 ≤ ws.length
      · obtain ⟨r1, r2⟩ := gdcWords_spec ws a (wordsOf d) a (Nat.le_refl _) (d.length / 8) hpre hle p (-1) hp
          (by rw [chipBefore_start]; rfl)
        have hws' : wordsOf ds.flatten = ws.drop (a + d.length / 8) := by
          rw [← List.drop_drop, ← hws, ← wordsOf_drop, List.flatten_cons, show 8 * (d.length / 8) = d.length by omega,
            List.drop_left]
        obtain ⟨rs, e1, e2⟩ := ih (a + d.length / 8) (gdcWords (8 * a) (-1) p (wordsOf d)).1 r1
          (fun x hx => hal x (by rw [List.dropLast_cons_of_ne_nil hz]; simp [hx])) hws'
        rw [GdcProc.processChunks, processChunk_eq]
        simp only [bind, Res.bind]
        rw [show 8 * a + d.length = 8 * (a + d.length / 8) by omega, e1]
        refine ⟨_, rfl, ?_⟩
        rw [List.map_append, r2, e2, List.map_cons, recordsCut, recordsOf, Nat.add_sub_cancel_left]
      · -- only possible when there are no words left at all
        have h0 : ws.length ≤ a ∧ d.length = 0 := by omega
        have hwd : wordsOf d = [] := wordsOf_short _ (by omega)
        have hws' : wordsOf ds.flatten = ws.drop a := by
          rw [← hws, List.flatten_cons, List.length_eq_zero_iff.mp h0.2, List.nil_append]
        obtain ⟨rs, e1, e2⟩ := ih a p hp
          (fun x hx => hal x (by rw [List.dropLast_cons_of_ne_nil hz]; simp [hx])) hws'
        rw [GdcProc.processChunks, processChunk_eq, hwd]
        simp only [bind, Res.bind, gdcWords]
        rw [h0.2, Nat.add_zero, e1]
        refine ⟨_, rfl, ?_⟩
        rw [List.nil_append, e2, List.map_cons, h0.2, recordsCut]
        simp [recordsOf]

theorem gdcAt_start (ws : List U64) : GdcAt ws 0 GdcProc.new := ⟨rfl, rfl, by decide⟩

/-- C23, exact: for every file and every cut into pieces of whole packets (the last piece may end in an incomplete
one) the records are those of the specification, piece by piece. -/
theorem c23_records (ds : List Bytes) (hal : ∀ d ∈ ds.dropLast, d.length % 8 = 0) :
    ∃ rs, GdcProc.new.processChunks ds 0 = .ok rs ∧
      rs.map (fun r => (r.chip, r.value.toNat, r.offset)) = recordsCut (wordsOf ds.flatten) 0 (ds.map fun d => d.length / 8) :=
  processChunks_spec (wordsOf ds.flatten) ds 0 GdcProc.new (gdcAt_start _) hal rfl

/-- C23 for a file in one piece: one record for each high-half packet that has a header with non-negative chip id
somewhere before it and leaves a non-zero global time. -/
theorem c23_one_piece (file : Bytes) : ∃ rs, GdcProc.new.processChunks [file] 0 = .ok rs ∧
    rs.map (fun r => (r.chip, r.value.toNat, r.offset)) = recordsOf (wordsOf file) 0 (file.length / 8) := by
  have := c23_records [file] (by simp)
  simpa [recordsCut] using this

theorem globalTime_lt (ws : List U64) : globalTime ws < 2 ^ 48 := by
  unfold globalTime
  generalize ws.filter _ = vs
  have key : ∀ (vs : List U64) (t : Times), t.gdc < 2 ^ 48 → t.low < 2 ^ 32 →
      (timesG t vs).gdc < 2 ^ 48 := by
    intro vs
    induction vs with
    | nil => intro t h _; exact h
    | cons w vs ih =>
      intro t h1 h2
      rw [timesG_cons]
      have hb : field w 16 32 < 2 ^ 32 := by unfold field; exact Nat.mod_lt _ (by positivity)
      have hb' : field w 16 16 < 2 ^ 16 := by unfold field; exact Nat.mod_lt _ (by positivity)
      apply ih
      · unfold nextG; split_ifs <;> (try simp only []) <;> omega
      · unfold nextG; split_ifs <;> (try simp only []) <;> omega
  exact key vs _ (by decide) (by decide)

theorem recordsCut_mem (ws : List U64) (a : Nat) (ns : List Nat) (r : Int × Nat × Nat) (h : r ∈ recordsCut ws a ns) :
    ∃ i b, b ≤ i ∧ a ≤ b ∧ i < a + ns.sum ∧ recordAt ws b i = some r := by
  induction ns generalizing a with
  | nil => simp [recordsCut] at h
  | cons n ns ih =>
    rw [recordsCut, List.mem_append] at h
    rcases h with h | h
    · obtain ⟨i, hi, hr⟩ := List.mem_filterMap.mp h
      rw [List.mem_range'_1] at hi
      refine ⟨i, a, hi.1, Nat.le_refl _, ?_, hr⟩
      rw [List.sum_cons]; omega
    · obtain ⟨i, b, h1, h2, h3, h4⟩ := ih (a + n) h
      refine ⟨i, b, h1, by omega, ?_, h4⟩
      rw [List.sum_cons]; omega

theorem recordAt_some {ws : List U64} {a i : Nat} {r : Int × Nat × Nat} (h : recordAt ws a i = some r) :
    r.2.2 = 8 * i ∧ r.2.1 = globalTime (ws.take (i + 1)) ∧ 0 ≤ r.1 ∧ IsHighHalf (ws.getD i 0) ∧
      chipBefore ws a i = some r.1 ∧ r.2.1 ≠ 0 := by
  unfold recordAt at h
  cases hc : chipBefore ws a i with
  | none => rw [hc] at h; simp at h
  | some c =>
    rw [hc] at h
    simp only at h
    split_ifs at h with hh
    injection h with h
    subst h
    exact ⟨rfl, rfl, hh.2.1, hh.1, rfl, hh.2.2⟩

theorem recordsCut_sorted (ws : List U64) (a : Nat) (ns : List Nat) :
    ((recordsCut ws a ns).map fun r => r.2.2).Pairwise (· < ·) := by
  induction ns generalizing a with
  | nil => simp [recordsCut]
  | cons n ns ih =>
    rw [recordsCut, List.map_append, List.pairwise_append]
    refine ⟨?_, ih _, ?_⟩
    · unfold recordsOf
      generalize a + n - a = k
      generalize hb : a = b
      have key : ∀ k b, ((List.range' b k).filterMap (recordAt ws a)).map (fun r => r.2.2) |>.Pairwise (· < ·) := by
        intro k
        induction k with
        | zero => intro b; simp
        | succ k ihk =>
          intro b
          rw [List.range'_succ, List.filterMap_cons]
          cases hr : recordAt ws a b with
          | none => exact ihk (b + 1)
          | some r =>
            simp only [List.map_cons]
            refine List.Pairwise.cons ?_ (ihk (b + 1))
            intro o ho
            obtain ⟨q, hq, rfl⟩ := List.mem_map.mp ho
            obtain ⟨i, hi, hri⟩ := List.mem_filterMap.mp hq
            rw [List.mem_range'_1] at hi
            rw [(recordAt_some hr).1, (recordAt_some hri).1]
            omega
      rw [← hb]
      exact key k a
    · intro x hx y hy
      obtain ⟨r, hr, rfl⟩ := List.mem_map.mp hx
      obtain ⟨q, hq, rfl⟩ := List.mem_map.mp hy
      obtain ⟨i, hi, hri⟩ := List.mem_filterMap.mp hr
      rw [List.mem_range'_1] at hi
      obtain ⟨j, b, h1, h2, -, h4⟩ := recordsCut_mem _ _ _ _ hq
      rw [(recordAt_some hri).1, (recordAt_some h4).1]
      omega

/-- C23: whatever the cut, offsets are strictly increasing multiples of 8 inside the file, times below 2^48 and chips
not negative; at each offset there is a high-half packet. -/
theorem c23_well_formed (ds : List Bytes) (hal : ∀ d ∈ ds.dropLast, d.length % 8 = 0) (rs : List GdcRecord)
    (h : GdcProc.new.processChunks ds 0 = .ok rs) :
    (rs.map GdcRecord.offset).Pairwise (· < ·) ∧
    ∀ r ∈ rs, 8 ∣ r.offset ∧ r.offset + 8 ≤ ds.flatten.length ∧ r.value.toNat < 2 ^ 48 ∧ 0 ≤ r.chip ∧
      ∃ w, wordAt ds.flatten r.offset = some w ∧ IsHighHalf w := by
  obtain ⟨rs', h1, h2⟩ := c23_records ds hal
  rw [h] at h1
  injection h1 with h1
  subst h1
  constructor
  · have := recordsCut_sorted (wordsOf ds.flatten) 0 (ds.map fun d => d.length / 8)
    rw [← h2, List.map_map] at this
    exact this
  · intro r hr
    have hm : (r.chip, r.value.toNat, r.offset) ∈ recordsCut (wordsOf ds.flatten) 0 (ds.map fun d => d.length / 8) := by
      rw [← h2]; exact List.mem_map.mpr ⟨r, hr, rfl⟩
    obtain ⟨i, b, -, -, h4, h5⟩ := recordsCut_mem _ _ _ _ hm
    obtain ⟨g1, g2, g3, g4, -, -⟩ := recordAt_some h5
    simp only at g1 g2 g3
    have hsum : (ds.map fun d => d.length / 8).sum ≤ ds.flatten.length / 8 := by
      clear h h2 hr hm h4 h5 hal g1 g2 g3 g4
      induction ds with
      | nil => simp
      | cons d ds ih =>
        simp only [List.map_cons, List.sum_cons, List.flatten_cons, List.length_append]
        omega
    have hi : i < (wordsOf ds.flatten).length := by rw [wordsOf_length]; omega
    have hi8 : 8 * i + 8 ≤ ds.flatten.length := by rw [wordsOf_length] at hi; omega
    refine ⟨⟨i, g1⟩, by omega, by rw [g2]; exact globalTime_lt _, g3, headWord (ds.flatten.drop (8 * i)), ?_, ?_⟩
    · rw [g1]; exact wordAt_eq _ _ hi8
    · rw [← wordsOf_getElem _ _ hi]
      have : (wordsOf ds.flatten).getD i 0 = (wordsOf ds.flatten)[i] := by simp [List.getD, hi]
      rwa [this] at g4

/-- C23, CSV: the time in nanoseconds does not overflow. -/
theorem c23_csv (ds : List Bytes) (hal : ∀ d ∈ ds.dropLast, d.length % 8 = 0) (rs : List GdcRecord)
    (h : GdcProc.new.processChunks ds 0 = .ok rs) :
    ∀ r ∈ rs, r.csv = (r.chip, r.value.toNat, r.offset, 25 * r.value.toNat) := by
  intro r hr
  have := ((c23_well_formed ds hal rs h).2 r hr).2.2.1
  unfold GdcRecord.csv
  have e : (r.value * 25#64).toNat = 25 * r.value.toNat := by
    rw [BitVec.toNat_mul]
    simp only [BitVec.toNat_ofNat, Nat.reducePow, Nat.reduceMod]
    rw [Nat.mod_eq_of_lt (by simp only [Nat.reducePow] at this; omega)]
    omega
  rw [e]

/-! ### Cutting -/

/-- A chip known in a later part is known in the whole, and it is the same. -/
theorem chipBefore_mono (ws : List U64) (a b i : Nat) (hab : a ≤ b) (c : Int) (h : chipBefore ws b i = some c) :
    chipBefore ws a i = some c := by
  rcases Nat.lt_or_ge i b with hi | hi
  · have : chipBefore ws b i = none := by
      unfold chipBefore
      rw [List.filter_eq_nil_iff.mpr]
      · rfl
      · intro x hx
        have := List.mem_range.mp hx
        simp; omega
    rw [this] at h; simp at h
  · obtain ⟨k, rfl⟩ : ∃ k, i = b + k := ⟨i - b, by omega⟩
    induction k with
    | zero => rw [Nat.add_zero, chipBefore_start] at h; simp at h
    | succ k ih =>
      rw [← Nat.add_assoc] at h ⊢
      rw [chipBefore_succ _ _ _ (by omega)] at h ⊢
      split_ifs at h ⊢ with hs
      · exact h
      · exact ih h (by omega)

theorem recordAt_mono (ws : List U64) (a b i : Nat) (hab : a ≤ b) (r : Int × Nat × Nat)
    (h : recordAt ws b i = some r) : recordAt ws a i = some r := by
  have hr := recordAt_some h
  unfold recordAt at h ⊢
  rw [hr.2.2.2.2.1] at h
  rw [chipBefore_mono ws a b i hab r.1 hr.2.2.2.2.1]
  exact h

theorem recordsCut_sublist (ws : List U64) (a b : Nat) (hab : a ≤ b) (ns : List Nat) :
    (recordsCut ws b ns).Sublist ((List.range' b ns.sum).filterMap (recordAt ws a)) := by
  induction ns generalizing b with
  | nil => simp [recordsCut]
  | cons n ns ih =>
    rw [recordsCut, List.sum_cons, ← List.range'_append_1, List.filterMap_append]
    refine List.Sublist.append ?_ (ih (b + n) (by omega))
    unfold recordsOf
    rw [Nat.add_sub_cancel_left]
    generalize List.range' b n = is
    induction is with
    | nil => simp
    | cons i is ihs =>
      rw [List.filterMap_cons, List.filterMap_cons]
      cases hr : recordAt ws b i with
      | none =>
        cases recordAt ws a i with
        | none => exact ihs
        | some q => exact List.Sublist.cons _ ihs
      | some r =>
        rw [recordAt_mono ws a b i hab r hr]
        exact List.Sublist.cons_cons _ ihs

/-- C23, any cut: the records of a file read in pieces of whole packets are among those of the file read in one piece,
in the same order: cutting never adds or alters a record.
Missing: that none is lost, which is false (`c23_false_cut`) unless every piece names a chip before its first
high-half packet (`c23_cut_partial`). -/
theorem c23_cut_sublist_partial (ds : List Bytes) (hal : ∀ d ∈ ds, d.length % 8 = 0) :
    ∃ cut whole, GdcProc.new.processChunks ds 0 = .ok cut ∧ GdcProc.new.processChunks [ds.flatten] 0 = .ok whole ∧
      (cut.map fun r => (r.chip, r.value.toNat, r.offset)).Sublist
        (whole.map fun r => (r.chip, r.value.toNat, r.offset)) := by
  obtain ⟨cut, h1, h2⟩ := c23_records ds fun d hd => hal d (List.dropLast_subset _ hd)
  obtain ⟨whole, h3, h4⟩ := c23_one_piece ds.flatten
  refine ⟨cut, whole, h1, h3, ?_⟩
  rw [h2, h4]
  have hsum : (ds.map fun d => d.length / 8).sum = ds.flatten.length / 8 := by
    clear h1 h2 h3 h4
    induction ds with
    | nil => simp
    | cons d ds ih =>
      have := hal d (by simp)
      rw [List.map_cons, List.sum_cons, List.flatten_cons, List.length_append, ih fun x hx => hal x (by simp [hx])]
      omega
  have := recordsCut_sublist (wordsOf ds.flatten) 0 0 (Nat.le_refl _) (ds.map fun d => d.length / 8)
  rw [hsum] at this
  exact this

/-- The first header of a list of words comes before its first high-half packet. -/
def HeaderFirst (ws : List U64) : Prop := ∀ i, i < ws.length → IsHighHalf (ws.getD i 0) →
  ∃ h, h < i ∧ StartsTPX3 (ws.getD h 0)

theorem chipBefore_isSome (ws : List U64) (a i h : Nat) (h1 : a ≤ h) (h2 : h < i) (hs : StartsTPX3 (ws.getD h 0)) :
    ∃ c, chipBefore ws a i = some c := by
  unfold chipBefore
  have hm : h ∈ (List.range i).filter fun h => a ≤ h ∧ StartsTPX3 (ws.getD h 0) := by
    rw [List.mem_filter, List.mem_range, decide_eq_true_eq]; exact ⟨h2, h1, hs⟩
  obtain ⟨x, hx⟩ := List.getLast?_isSome.mpr (List.ne_nil_of_mem hm) |> Option.isSome_iff_exists.mp
  exact ⟨_, by rw [hx]; rfl⟩

theorem recordAt_same (ws : List U64) (a b i : Nat) (hab : a ≤ b)
    (hh : IsHighHalf (ws.getD i 0) → ∃ h, b ≤ h ∧ h < i ∧ StartsTPX3 (ws.getD h 0)) :
    recordAt ws b i = recordAt ws a i := by
  by_cases hhi : IsHighHalf (ws.getD i 0)
  · obtain ⟨h, g1, g2, g3⟩ := hh hhi
    obtain ⟨c, hc⟩ := chipBefore_isSome ws b i h g1 g2 g3
    unfold recordAt
    rw [hc, chipBefore_mono ws a b i hab c hc]
  · unfold recordAt
    have hn : ∀ c : Int, ¬ (IsHighHalf (ws.getD i 0) ∧ 0 ≤ c ∧ globalTime (ws.take (i + 1)) ≠ 0) := fun _ g => hhi g.1
    cases chipBefore ws a i <;> cases chipBefore ws b i <;> simp only [if_neg (hn _)]

/-- C23 for good cuts: if in every piece a header comes before the first high-half packet, the records are exactly
those of the file read in one piece.  Missing: other cuts, for which the claim is false. -/
theorem c23_cut_partial (ds : List Bytes) (hal : ∀ d ∈ ds, d.length % 8 = 0) (hhead : ∀ d ∈ ds, HeaderFirst (wordsOf d)) :
    ∃ cut whole, GdcProc.new.processChunks ds 0 = .ok cut ∧ GdcProc.new.processChunks [ds.flatten] 0 = .ok whole ∧
      cut.map (fun r => (r.chip, r.value.toNat, r.offset)) = whole.map (fun r => (r.chip, r.value.toNat, r.offset)) := by
  obtain ⟨cut, h1, h2⟩ := c23_records ds fun d hd => hal d (List.dropLast_subset _ hd)
  obtain ⟨whole, h3, h4⟩ := c23_one_piece ds.flatten
  refine ⟨cut, whole, h1, h3, ?_⟩
  rw [h2, h4]
  have key : ∀ (ds : List Bytes) (ws : List U64) (b : Nat), (∀ d ∈ ds, d.length % 8 = 0) →
      (∀ d ∈ ds, HeaderFirst (wordsOf d)) → wordsOf ds.flatten = ws.drop b →
      recordsCut ws b (ds.map fun d => d.length / 8) =
        (List.range' b (ds.flatten.length / 8)).filterMap (recordAt ws 0) := by
    intro ds ws
    induction ds with
    | nil => intro b _ _ _; rfl
    | cons d ds ih =>
      intro b hal hhead hws
      have h8 := hal d (by simp)
      have hlen : (d :: ds).flatten.length / 8 = d.length / 8 + ds.flatten.length / 8 := by
        rw [List.flatten_cons, List.length_append]; omega
      rw [hlen, List.map_cons, recordsCut, ← List.range'_append_1, List.filterMap_append]
      have hdrop : wordsOf ds.flatten = ws.drop (b + d.length / 8) := by
        rw [← List.drop_drop, ← hws, ← wordsOf_drop, List.flatten_cons, show 8 * (d.length / 8) = d.length by omega,
          List.drop_left]
      rw [ih (b + d.length / 8) (fun x hx => hal x (by simp [hx])) (fun x hx => hhead x (by simp [hx])) hdrop]
      congr 1
      unfold recordsOf
      rw [Nat.add_sub_cancel_left]
      apply List.filterMap_congr
      intro i hi
      rw [List.mem_range'_1] at hi
      have hget : ∀ j, b ≤ j → j < b + d.length / 8 → ws.getD j 0 = (wordsOf d).getD (j - b) 0 := by
        intro j hj1 hj2
        have e1 : (wordsOf (d :: ds).flatten)[j - b]? = ws[j]? := by
          rw [hws, List.getElem?_drop]; congr 1; omega
        have e2 : (wordsOf (d :: ds).flatten).take (d.length / 8) = wordsOf d := by
          rw [← wordsOf_take _ _ (by rw [hlen]; omega), List.flatten_cons, show 8 * (d.length / 8) = d.length by omega,
            List.take_left]
        rw [List.getD_eq_getElem?_getD, List.getD_eq_getElem?_getD, ← e1, ← e2, List.getElem?_take_of_lt (by omega)]
      apply recordAt_same ws 0 b i (Nat.zero_le _)
      intro hhi
      rw [hget i hi.1 hi.2] at hhi
      obtain ⟨h, g1, g2⟩ := hhead d (by simp) (i - b) (by rw [wordsOf_length]; omega) hhi
      refine ⟨b + h, by omega, by omega, ?_⟩
      rw [hget (b + h) (by omega) (by omega), Nat.add_sub_cancel_left]
      exact g2
  have := key ds (wordsOf ds.flatten) 0 hal hhead rfl
  rw [this]
  rfl

/-- Two pieces, each a header followed by the two halves of the global time. -/
example : ∀ d ∈ [[0x0010000033585054#64, 0x4400000012340000#64, 0x4500000000010000#64].flatMap bytesOf,
    [0x0010000133585054#64, 0x4400000012350000#64, 0x4500000000010000#64].flatMap bytesOf],
    d.length % 8 = 0 ∧ HeaderFirst (wordsOf d) := by
  intro d hd
  simp only [List.mem_cons, List.not_mem_nil, or_false] at hd
  rcases hd with rfl | rfl <;> refine ⟨by decide, fun i hi hh => ⟨0, ?_, by decide⟩⟩ <;>
  · rcases Nat.eq_zero_or_pos i with rfl | h
    · exact absurd hh (by decide)
    · exact h

example : (GdcProc.new.processChunks
    [[0x0010000233585054#64, 0x4400000012340000#64, 0x4500000000010000#64].flatMap bytesOf] 0) =
    .ok [⟨2, 0x100001234#64, 16⟩] := by decide

/-- C23 is false as stated: cut between the header and the high half, and the record is lost. -/
theorem c23_false_cut : ∃ d1 d2 : Bytes, ∃ r, d1.length % 8 = 0 ∧ d2.length % 8 = 0 ∧
    GdcProc.new.processChunks [d1 ++ d2] 0 = .ok [r] ∧ GdcProc.new.processChunks [d1, d2] 0 = .ok [] :=
  ⟨[0x0010000233585054#64, 0x4400000012340000#64].flatMap bytesOf, [0x4500000000010000#64].flatMap bytesOf,
    ⟨2, 0x100001234#64, 16⟩, by decide, by decide, by decide, by decide⟩

/-- C23 is false as stated: a high half that follows a header is not reported when the time is zero, or when the chip
id is 128 or more. -/
theorem c23_false_missing :
    GdcProc.new.processChunks [[0x0010000033585054#64, 0x4500000000000000#64].flatMap bytesOf] 0 = .ok [] ∧
    GdcProc.new.processChunks [[0x0010008033585054#64, 0x4500000000010000#64].flatMap bytesOf] 0 = .ok [] := by
  constructor <;> decide

/-- C23, about the sizes the tool accepts: the argument in megabytes, modulo 2^44, from 1 to 20480.  So all cuts are
between packets. -/
theorem c23_accepted_sizes (mb n : Nat) :
    gdcChunkSize? mb = some n ↔ n = mb % 2 ^ 44 * 2 ^ 20 ∧ 1 ≤ mb % 2 ^ 44 ∧ mb % 2 ^ 44 ≤ 20480 := by
  unfold gdcChunkSize?
  simp only [BitVec.toNat_mul, BitVec.toNat_ofNat, Nat.reducePow]
  split_ifs with hc
  · simp only [reduceCtorEq, false_iff, not_and, not_le]
    omega
  · simp only [Option.some.injEq]
    omega

/-- C23: the smallest and the largest size, and a wrapped argument. -/
theorem c23_sizes_example : gdcChunkSize? 1 = some 1048576 ∧ gdcChunkSize? 20480 = some (20 * 2 ^ 30) ∧
    gdcChunkSize? 0 = none ∧ gdcChunkSize? 20481 = none ∧ gdcChunkSize? (2 ^ 44 + 1) = some 1048576 := by decide

end Verif.Props
