import Verif.Spec.AnyFile
import Verif.Props.EndToEnd

/-!
# C94: what the program does with an arbitrary file
-/

namespace Verif.Props

open Verif Verif.Spec

/-! ## One piece -/

theorem reaches_iff (buf : Bytes) (pre : List U64) (w : U64) (post : List U64) (hbuf : wordsOf buf = pre ++ w :: post) (num : Nat) :
    reachesPartial buf (8 * pre.length) num ↔ buf.length % 8 ≠ 0 ∧ post.length < num := by
  have hl := congrArg List.length hbuf
  rw [wordsOf_length, List.length_append, List.length_cons] at hl
  unfold reachesPartial
  omega

theorem packets_any (buf : Bytes) (pre : List U64) (w : U64) (post : List U64) (hbuf : wordsOf buf = pre ++ w :: post) (num : Nat) :
    batchPackets buf (8 * pre.length) num = post.take num := by
  unfold batchPackets
  rw [show 8 * pre.length + 8 = 8 * (pre.length + 1) by omega, wordsOf_drop, hbuf,
    show pre ++ w :: post = (pre ++ [w]) ++ post by simp]
  rw [List.drop_left' (by simp)]

/-- The headers of a piece that does not overrun. -/
theorem chunk_core_any (x : CliCtx) (buf : Bytes) (hno : ¬ Overrun buf) (pre ws : List U64) (hbuf : wordsOf buf = pre ++ ws)
    (c : Clock) :
    ∃ bs1, locate x.mode buf (scan ws (8 * pre.length)) c = .ok (bs1, clockAfter x.mode c (announced ws)) ∧
      (oneAll ⟨x.mode, buf, x.params, x.solve⟩ (bs1.map fun b => ⟨b, []⟩)).bind (fun es => .ok (outputOf es)) =
        evAll x (perChunk x.mode c (announced ws)) := by
  induction ws generalizing pre c with
  | nil => exact ⟨[], rfl, rfl⟩
  | cons w ws ih =>
    have e1 : wordsOf buf = (pre ++ [w]) ++ ws := by rw [hbuf]; simp
    have e2 : 8 * pre.length + 8 = 8 * (pre ++ [w]).length := by simp; omega
    by_cases hs : StartsTPX w
    · have hp : ¬ reachesPartial buf (8 * pre.length) (field w 48 16 / 8) := by
        rw [reaches_iff buf pre w ws hbuf]
        rintro ⟨h1, h2⟩
        exact hno ⟨h1, pre, w, ws, hbuf, hs, h2⟩
      have hpk := packets_any buf pre w ws hbuf (field w 48 16 / 8)
      obtain ⟨bs1, i1, i2⟩ := ih (pre ++ [w]) e1
        (runPackets x.mode true (headerChipId w) (ws.take (field w 48 16 / 8)) c).1
      have hscan : scan (w :: ws) (8 * pre.length) =
          Batch.new (8 * pre.length) (field w 48 16 / 8) (headerChipId w) :: scan ws (8 * (pre ++ [w]).length) := by
        rw [scan, if_pos ((isHeader_iff_starts _).mpr hs), headerPackets_field, headerChip_eq, e2]
      have hann : announced (w :: ws) = ⟨w, ws.take (field w 48 16 / 8)⟩ :: announced ws := by rw [announced, if_pos hs]
      obtain ⟨B0, hB0⟩ : ∃ B0, B0 = Batch.new (8 * pre.length) (field w 48 16 / 8) (headerChipId w) := ⟨_, rfl⟩
      have f0 : B0.index = 8 * pre.length ∧ B0.numPackets = field w 48 16 / 8 ∧ B0.chip = headerChipId w ∧ B0.hits = [] := by
        rw [hB0]; exact ⟨rfl, rfl, rfl, rfl⟩
      rw [hscan, hann, ← hB0]
      refine ⟨{ B0 with clock := storedClock x.mode B0 c } :: bs1, ?_, ?_⟩
      · simp only [locate, updateTimestamp_eq]
        rw [f0.1, f0.2.1, f0.2.2.1, if_neg hp, hpk]
        simp only [bind, Res.bind]
        rw [i1]
        rfl
      · obtain ⟨B, hB⟩ : ∃ B, B = { B0 with clock := storedClock x.mode B0 c } := ⟨_, rfl⟩
        have f1 : B.index = 8 * pre.length ∧ B.numPackets = field w 48 16 / 8 ∧ B.chip = headerChipId w ∧
            B.hits = [] ∧ B.clock = storedClock x.mode B0 c := by
          rw [hB]; exact ⟨f0.1, f0.2.1, f0.2.2.1, f0.2.2.2, rfl⟩
        rw [← hB]
        have h1 := one_eq x buf B (by rw [f1.1, f1.2.1]; exact hp) f1.2.2.2.1
        rw [f1.1, f1.2.1, f1.2.2.1, f1.2.2.2.2, hpk, run_stored] at h1
        simp only [List.map_cons, oneAll, perChunk, evAll, bind]
        rw [← i2]
        revert h1
        generalize ProcCtx.one _ _ = A
        generalize eventsOf x _ = B
        generalize oneAll _ _ = C
        intro h1
        cases A <;> cases B <;> simp [Res.bind] at h1
        · cases C <;> simp [Res.bind, outputOf, h1]
        · subst h1; rfl
        · subst h1; rfl
    · obtain ⟨bs1, i1, i2⟩ := ih (pre ++ [w]) e1 c
      have hscan : scan (w :: ws) (8 * pre.length) = scan ws (8 * (pre ++ [w]).length) := by
        rw [scan, if_neg (fun h => hs ((isHeader_iff_starts _).mp h)), e2]
      have hann : announced (w :: ws) = announced ws := by rw [announced, if_neg hs]
      rw [hscan, hann]
      exact ⟨bs1, i1, i2⟩

theorem chunk_any (x : CliCtx) (buf : Bytes) (hno : ¬ Overrun buf) (c : Clock) :
    chunkOutput (chunkEvents x buf c) =
      (evAll x (perChunk x.mode c (announced (wordsOf buf)))).bind fun v =>
        .ok (v, clockAfter x.mode c (announced (wordsOf buf))) := by
  obtain ⟨bs1, h1, h2⟩ := chunk_core_any x buf hno [] (wordsOf buf) rfl c
  unfold chunkOutput chunkEvents
  rw [findTPX3H_eq]
  rw [List.length_nil, Nat.mul_zero] at h1
  simp only [bind, Res.bind, h1]
  rw [← h2]
  generalize oneAll _ _ = C
  cases C <;> rfl

theorem locate_overrun (m : Mode) (buf : Bytes) (bs : List Batch) (c : Clock) (b : Batch) (hb : b ∈ bs)
    (hp : reachesPartial buf b.index b.numPackets) : locate m buf bs c = .ub .oobRead := by
  induction bs generalizing c with
  | nil => simp at hb
  | cons b0 bs ih =>
    simp only [locate, updateTimestamp_eq, bind, Res.bind]
    by_cases h0 : reachesPartial buf b0.index b0.numPackets
    · rw [if_pos h0]
    · rw [if_neg h0]
      simp only
      rcases List.mem_cons.mp hb with rfl | hb
      · exact absurd hp h0
      · rw [ih _ hb]

theorem chunk_overrun (x : CliCtx) (buf : Bytes) (ho : Overrun buf) (c : Clock) : chunkEvents x buf c = .ub .oobRead := by
  obtain ⟨h8, pre, w, post, hbuf, hs, hlt⟩ := ho
  unfold chunkEvents
  rw [findTPX3H_eq, hbuf]
  have hm : Batch.new (8 * pre.length) (field w 48 16 / 8) (headerChipId w) ∈ scan (pre ++ w :: post) 0 := by
    rw [scan_append, List.mem_append]
    right
    rw [scan, if_pos ((isHeader_iff_starts _).mpr hs), headerPackets_field, headerChip_eq, Nat.zero_add]
    exact List.mem_cons_self
  have hr := (reaches_iff buf pre w post hbuf (field w 48 16 / 8)).mpr ⟨h8, hlt⟩
  have := locate_overrun x.mode buf _ c _ hm hr
  simp only [bind, Res.bind, this]

/-! ## All pieces -/

theorem pieces_nil (n : Nat) (hn0 : 0 < n) : pieces n [] = [] := by
  unfold pieces
  rw [List.length_nil, Nat.zero_add, Nat.div_eq_of_lt (by omega)]
  rfl

theorem pieces_cons (n : Nat) (hn0 : 0 < n) (file : Bytes) (hf : file ≠ []) :
    pieces n file = file.take n :: pieces n (file.drop n) := by
  have hl : 0 < file.length := List.length_pos_iff.mpr hf
  have hcount : (file.length + n - 1) / n = ((file.drop n).length + n - 1) / n + 1 := by
    rw [List.length_drop]
    by_cases h : n ≤ file.length
    · rw [show file.length + n - 1 = (file.length - n + n - 1) + n by omega, Nat.add_div_right _ hn0]
    · rw [show file.length - n + n - 1 = n - 1 by omega, Nat.div_eq_of_lt (a := n - 1) (by omega)]
      rw [show file.length + n - 1 = (file.length - 1) + n by omega, Nat.add_div_right _ hn0, Nat.div_eq_of_lt (by omega)]
  unfold pieces
  rw [hcount, List.range_succ_eq_map, List.map_cons, List.map_map, Nat.mul_zero, List.drop_zero]
  congr 1
  apply List.map_congr_left
  intro i _
  simp only [Function.comp_apply]
  rw [List.drop_drop, Nat.succ_eq_add_one]
  congr 2
  rw [Nat.mul_add, Nat.mul_one, Nat.add_comm]

theorem pieces_flatten (n : Nat) (hn0 : 0 < n) (file : Bytes) : (pieces n file).flatten = file := by
  induction hlen : file.length using Nat.strong_induction_on generalizing file with
  | _ k ih =>
    by_cases hf : file = []
    · rw [hf, pieces_nil n hn0]; rfl
    · have hl : 0 < file.length := List.length_pos_iff.mpr hf
      rw [pieces_cons n hn0 file hf, List.flatten_cons, ih (file.drop n).length (by rw [List.length_drop]; omega) _ rfl,
        List.take_append_drop]

theorem pieces_length_le (n : Nat) (hn0 : 0 < n) (file : Bytes) : (pieces n file).length ≤ file.length := by
  unfold pieces
  rw [List.length_map, List.length_range]
  by_cases h : file.length = 0
  · rw [h, Nat.zero_add, Nat.div_eq_of_lt (by omega)]
  · rw [show file.length + n - 1 = (file.length - 1) + n by omega, Nat.add_div_right _ hn0]
    have := Nat.div_le_self (file.length - 1) n
    omega

theorem readChunk_any (file : Bytes) (p n : Nat) (hp : p < file.length) :
    (Reader.readChunk ⟨file, p⟩ n).1 = (file.drop p).take n ∧
    (Reader.readChunk ⟨file, p⟩ n).2 = ⟨file, min (p + n) file.length⟩ := by
  obtain ⟨r1, r2, r3⟩ := readChunk_spec ⟨file, p⟩ n (le_of_lt hp)
  simp only at r1 r2 r3
  refine ⟨r1, ?_⟩
  rcases hh : (Reader.readChunk ⟨file, p⟩ n).2 with ⟨f, q⟩
  rw [hh] at r2 r3
  simp only at r2 r3
  rw [r2, r3]

theorem drop_min (file : Bytes) (p n : Nat) : file.drop (min (p + n) file.length) = (file.drop p).drop n := by
  rw [List.drop_drop]
  by_cases hle : p + n ≤ file.length
  · rw [min_eq_left hle]
  · rw [min_eq_right (by omega), List.drop_of_length_le le_rfl, List.drop_of_length_le (by omega)]

/-- The loop on a file none of whose pieces overruns. -/
theorem cliLoop_any (x : CliCtx) (n : Nat) (hn0 : 0 < n) (file : Bytes) (fuel p : Nat) (hp : p ≤ file.length) (c : Clock)
    (out : List EventBatch) (hno : ∀ b ∈ pieces n (file.drop p), ¬ Overrun b) (hfuel : file.length - p < fuel) :
    runOutput (cliLoop x n fuel ⟨file, p⟩ c out) =
      (evAll x (perChunk x.mode c (fileChunks n (file.drop p)))).bind fun v =>
        .ok (some (outputOf out ++ v, clockAfter x.mode c (fileChunks n (file.drop p)))) := by
  induction fuel generalizing p c out with
  | zero => omega
  | succ fuel ih =>
    rw [cliLoop]
    by_cases hend : file.length ≤ p
    · rw [if_pos (by simp only [Reader.isEOF, decide_eq_true_eq]; omega), List.drop_of_length_le hend]
      unfold fileChunks
      rw [pieces_nil n hn0]
      simp [runOutput, evAll, perChunk, clockAfter, Res.bind]
    · rw [if_neg (by simp only [Reader.isEOF, decide_eq_true_eq]; omega)]
      obtain ⟨r1, r2⟩ := readChunk_any file p n (by omega)
      have hne : file.drop p ≠ [] := by
        intro h0
        have := congrArg List.length h0
        rw [List.length_drop, List.length_nil] at this
        omega
      have hne' : (file.drop p).take n ≠ [] := by
        intro h0
        have := congrArg List.length h0
        rw [List.length_take, List.length_drop, List.length_nil] at this
        omega
      have hpc := pieces_cons n hn0 _ hne
      simp only
      rw [r1, r2, if_neg hne']
      have hfc : fileChunks n (file.drop p) = announced (wordsOf ((file.drop p).take n)) ++
          fileChunks n (file.drop (min (p + n) file.length)) := by
        unfold fileChunks
        rw [hpc, List.flatMap_cons, drop_min]
      have hno1 : ¬ Overrun ((file.drop p).take n) := hno _ (by rw [hpc]; simp)
      have hno2 : ∀ b ∈ pieces n (file.drop (min (p + n) file.length)), ¬ Overrun b := by
        intro b hb
        rw [drop_min] at hb
        exact hno b (by rw [hpc]; exact List.mem_cons_of_mem _ hb)
      rw [hfc, (perChunk_append _ _ _ _).1, (perChunk_append _ _ _ _).2, evAll_append]
      have hch := chunk_any x _ hno1 c
      generalize hA : announced (wordsOf ((file.drop p).take n)) = as at hch ⊢
      cases hce : chunkEvents x ((file.drop p).take n) c with
      | ok e =>
        rw [hce] at hch
        simp only
        cases hev : evAll x (perChunk x.mode c as) with
        | ok v =>
          rw [hev] at hch
          simp only [chunkOutput, Res.bind, Res.ok.injEq, Prod.mk.injEq] at hch
          rw [ih _ (min_le_right _ _) e.2 (out ++ e.1) hno2 (by omega), hch.2]
          simp only [Res.bind]
          have ho : outputOf (out ++ e.1) = outputOf out ++ v := by rw [← hch.1]; simp [outputOf]
          rw [ho]
          generalize evAll x _ = E
          cases E <;> simp [List.append_assoc]
        | throws u => exact absurd hev (evAll_no_throw _ _ _)
        | ub u => rw [hev] at hch; simp [chunkOutput, Res.bind] at hch
      | throws u => exact absurd hce (chunkEvents_no_throw x _ c u)
      | ub u =>
        rw [hce] at hch
        cases hev : evAll x (perChunk x.mode c as) with
        | ok v => rw [hev] at hch; simp [chunkOutput, Res.bind] at hch
        | throws u => exact absurd hev (evAll_no_throw _ _ _)
        | ub u' =>
          rw [hev] at hch
          simp only [chunkOutput, Res.bind, Res.ub.injEq] at hch
          subst hch
          rfl

/-- The loop on a file with a piece that overruns: the outcome is undefined. -/
theorem cliLoop_overrun (x : CliCtx) (n : Nat) (hn0 : 0 < n) (file : Bytes) (fuel p : Nat) (hp : p ≤ file.length) (c : Clock)
    (out : List EventBatch) (ho : ∃ b ∈ pieces n (file.drop p), Overrun b) (hfuel : file.length - p < fuel) :
    ∃ u, cliLoop x n fuel ⟨file, p⟩ c out = .ub u := by
  induction fuel generalizing p c out with
  | zero => omega
  | succ fuel ih =>
    rw [cliLoop]
    by_cases hend : file.length ≤ p
    · rw [List.drop_of_length_le hend, pieces_nil n hn0] at ho
      simp at ho
    · rw [if_neg (by simp only [Reader.isEOF, decide_eq_true_eq]; omega)]
      obtain ⟨r1, r2⟩ := readChunk_any file p n (by omega)
      have hne : file.drop p ≠ [] := by
        intro h0
        have := congrArg List.length h0
        rw [List.length_drop, List.length_nil] at this
        omega
      have hne' : (file.drop p).take n ≠ [] := by
        intro h0
        have := congrArg List.length h0
        rw [List.length_take, List.length_drop, List.length_nil] at this
        omega
      have hpc := pieces_cons n hn0 _ hne
      simp only
      rw [r1, r2, if_neg hne']
      cases hce : chunkEvents x ((file.drop p).take n) c with
      | ub u => exact ⟨u, rfl⟩
      | throws u => exact absurd hce (chunkEvents_no_throw x _ c u)
      | ok e =>
        simp only
        obtain ⟨b, hb, hob⟩ := ho
        rw [hpc] at hb
        rcases List.mem_cons.mp hb with rfl | hb
        · rw [chunk_overrun x _ hob c] at hce
          simp at hce
        · exact ih _ (min_le_right _ _) e.2 (out ++ e.1) ⟨b, by rw [drop_min]; exact hb, hob⟩ (by omega)

theorem cliRun_any (x : CliCtx) (n : Nat) (hn0 : 0 < n) (file : Bytes) (hf : file ≠ []) (fuel : Nat)
    (hno : ∀ b ∈ pieces n file, ¬ Overrun b) (hfuel : file.length < fuel) :
    runOutput (cliRun x n fuel file) =
      (evAll x (perChunk x.mode Clock.zero (fileChunks n file))).bind fun v =>
        .ok (some (v, clockAfter x.mode Clock.zero (fileChunks n file))) := by
  unfold cliRun Reader.open
  rw [if_neg (by simpa using hf)]
  simp only
  rw [cliLoop_any x n hn0 file fuel 0 (by omega) Clock.zero [] (by simpa using hno) (by omega)]
  simp [outputOf]

theorem cliRun_overrun (x : CliCtx) (n : Nat) (hn0 : 0 < n) (file : Bytes) (fuel : Nat)
    (ho : ∃ b ∈ pieces n file, Overrun b) (hfuel : file.length < fuel) : ∃ u, cliRun x n fuel file = .ub u := by
  unfold cliRun Reader.open
  have hf : file.length ≠ 0 := by
    intro h
    rw [List.length_eq_zero_iff.mp h, pieces_nil n hn0] at ho
    simp at ho
  rw [if_neg hf]
  exact cliLoop_overrun x n hn0 file fuel 0 (by omega) Clock.zero [] (by simpa using ho) (by omega)

/-- C94, the hits: whatever the bytes of the file and whatever the piece size, if a run ends then no piece overran, there is one
batch for every word that looks like a header, its hits are those of the announced packets as far as the piece reaches, dated with
the times carried through all announced packets before, and its events are those of its hits. -/
theorem c94_hits (x : CliCtx) (n : Nat) (hn0 : 0 < n) (file : Bytes) (fuel : Nat) (bs : List EventBatch) (c : Clock)
    (h : cliRun x n fuel file = .ok (some (bs, c))) :
    (∀ b ∈ pieces n file, ¬ Overrun b) ∧
    bs.map (fun b => b.batch.hits) = chunkHits x.mode ⟨0, 0, 0⟩ (fileChunks n file) ∧
    ∀ b ∈ bs, eventsOf x b.batch.hits = .ok b.neutrons := by
  have h' := cliRun_mono x n fuel (file.length + 1) _ _ h
  have hno : ∀ b ∈ pieces n file, ¬ Overrun b := by
    intro b hb ho
    obtain ⟨u, hu⟩ := cliRun_overrun x n hn0 file (fuel + (file.length + 1)) ⟨b, hb, ho⟩ (by omega)
    rw [hu] at h'
    simp at h'
  refine ⟨hno, ?_, fun b hb => (cliRun_batches _ _ _ _ _ _ h b hb).2⟩
  have hf : file ≠ [] := by
    rintro rfl
    unfold cliRun Reader.open at h
    simp at h
  have hb := cliRun_any x n hn0 file hf (fuel + (file.length + 1)) hno (by omega)
  rw [h'] at hb
  simp only [runOutput, Res.bind, Option.map_some] at hb
  cases he : evAll x (perChunk x.mode Clock.zero (fileChunks n file)) with
  | ub u => rw [he] at hb; simp at hb
  | throws m => rw [he] at hb; simp at hb
  | ok v =>
    rw [he] at hb
    simp only [Res.ok.injEq, Option.some.injEq, Prod.mk.injEq] at hb
    obtain ⟨e1, -⟩ := evAll_fst x _ v he
    rw [← hb.1] at e1
    rw [show (⟨0, 0, 0⟩ : Times) = Clock.zero.times from rfl, ← perChunk_hits x.mode Clock.zero (by decide), ← e1, outputOf,
      List.map_map]
    rfl

/-! ## Late hits -/

/-- Every cluster started before the year 2^63 ns. -/
def EarlySlots (sl : List Slot) : Prop := ∀ s ∈ sl, s.time ≤ 2 ^ 63

theorem time_lo (h : Hit) (ht : h.spidertime.toNat ≤ 2 ^ 58) : rndQ (rndQ ((h.spidertime.toNat : ℕ) : ℚ) * 25) ≤ 2 ^ 63 := by
  generalize h.spidertime.toNat = n at ht
  have hq : (n : ℚ) ≤ 2 ^ 58 := by exact_mod_cast ht
  have g58 : rndQ ((2 : ℚ) ^ 58) = 2 ^ 58 := rndQ_of_grid 1 58 (by norm_num) (by norm_num) (by norm_num)
  have g63 : rndQ ((2 : ℚ) ^ 63) = 2 ^ 63 := rndQ_of_grid 1 63 (by norm_num) (by norm_num) (by norm_num)
  have h1 := rndQ_mono hq
  rw [g58] at h1
  rw [← g63]
  apply rndQ_mono
  linarith

theorem time_hi (h : Hit) (ht : Misdated h) : (2 : ℚ) ^ 64 ≤ rndQ (rndQ ((h.spidertime.toNat : ℕ) : ℚ) * 25) := by
  unfold Misdated at ht
  generalize h.spidertime.toNat = n at ht
  have hq : (737869762948382017 : ℚ) ≤ n := by exact_mod_cast ht
  have := rndQ_mono hq
  have e : rndQ (rndQ (737869762948382017 : ℚ) * 25) = 2 ^ 64 := by decide +kernel
  rw [← e]
  exact rndQ_mono (by linarith)

theorem openSlot_early (l : Int) (h : Hit) (s : Slot) (ht : h.spidertime.toNat ≤ 2 ^ 58) (ho : openSlot l h = .ok s) :
    s.time ≤ 2 ^ 63 := by
  unfold openSlot at ho
  rw [spidertimeNs_rnd] at ho
  have hi := time_lo h ht
  have c0 : 0 ≤ rndQ (rndQ ((h.spidertime.toNat : ℕ) : ℚ) * 25) :=
    rndQ_nonneg (by have := rndQ_nonneg (q := ((h.spidertime.toNat : ℕ) : ℚ)) (by positivity); positivity)
  generalize rndQ (rndQ ((h.spidertime.toNat : ℕ) : ℚ) * 25) = q at ho hi c0
  have et : F64.truncQ q = ⌊q⌋ := by unfold F64.truncQ; rw [if_pos c0]
  have f1 : ⌊q⌋ ≤ 2 ^ 63 := by
    have : (⌊q⌋ : ℚ) ≤ 2 ^ 63 := (Int.floor_le q).trans hi
    exact_mod_cast this
  have f0 : 0 ≤ ⌊q⌋ := Int.floor_nonneg.mpr c0
  have hsome : F64.toU64? (.fin q) = some ⌊q⌋.toNat := by
    unfold F64.toU64?
    simp only [et]
    rw [if_pos ⟨f0, by omega⟩]
  rw [hsome] at ho
  simp only [Res.ok.injEq] at ho
  subst ho
  simp only
  omega

theorem late_not_accepted (p : AbsParams) (hr : p.range ≤ 2 ^ 62) (h : Hit) (ht : Misdated h) (s : Slot)
    (hs : s.time ≤ 2 ^ 63) : s.accepts p h = false := by
  have hlt : h.spidertime.toNat < 2 ^ 64 := h.spidertime.isLt
  have hi := time_hi h ht
  have hbig : ∀ q : ℚ, 0 ≤ q → q ≤ 2 ^ 70 → |q| ≤ (2 : ℚ) ^ (1000 : ℤ) := by
    intro q h0 h1
    rw [abs_of_nonneg h0]
    refine h1.trans ?_
    rw [show (1000 : ℤ) = ((1000 : ℕ) : ℤ) from rfl, zpow_natCast]
    exact pow_le_pow_right₀ (by norm_num) (by norm_num)
  have g : ∀ k : ℕ, k ≤ 70 → rndQ ((2 : ℚ) ^ k) = 2 ^ k := by
    intro k _
    refine rndQ_of_grid 1 k ?_ (by omega) (by norm_num)
    rw [zpow_natCast]; norm_num
  have e1 : ∀ n : ℕ, n ≤ 2 ^ 63 → F64.ofInt (n : ℤ) = .fin (rndQ (n : ℚ)) := by
    intro n hn
    have hnq : (n : ℚ) ≤ 2 ^ 63 := by exact_mod_cast hn
    unfold F64.ofInt
    rw [Int.cast_natCast]
    exact F64.ofRat_fin (hbig _ (by positivity) (hnq.trans (by norm_num)))
  have hrange : rndQ (p.range : ℚ) ≤ 2 ^ 62 := by
    rw [← g 62 (by norm_num)]
    exact rndQ_mono (by exact_mod_cast hr)
  have htime : rndQ (s.time : ℚ) ≤ 2 ^ 63 := by
    rw [← g 63 (by norm_num)]
    exact rndQ_mono (by exact_mod_cast hs)
  have htime0 : 0 ≤ rndQ (s.time : ℚ) := rndQ_nonneg (by positivity)
  have hup : rndQ (rndQ ((h.spidertime.toNat : ℕ) : ℚ) * 25) ≤ 2 ^ 69 := by
    have hq : ((h.spidertime.toNat : ℕ) : ℚ) ≤ 2 ^ 64 := by exact_mod_cast hlt.le
    have h1 := rndQ_mono hq
    rw [g 64 (by norm_num)] at h1
    rw [← g 69 (by norm_num)]
    apply rndQ_mono
    linarith
  unfold Slot.accepts
  rw [spidertimeNs_rnd, e1 _ hs, e1 _ (by omega)]
  generalize rndQ (rndQ ((h.spidertime.toNat : ℕ) : ℚ) * 25) = v at hi hup
  generalize rndQ (s.time : ℚ) = t at htime htime0
  generalize rndQ (p.range : ℚ) = r at hrange
  have hd0 : (2 : ℚ) ^ 63 ≤ v + -t := by linarith
  have hsub : F64.sub (.fin v) (.fin t) = .fin (rndQ (v + -t)) := by
    show F64.ofRat (v + -t) = _
    exact F64.ofRat_fin (hbig _ (by linarith) (by linarith))
  have hd : (2 : ℚ) ^ 63 ≤ rndQ (v + -t) := by
    rw [← g 63 (by norm_num)]
    exact rndQ_mono hd0
  have hle : F64.le (F64.abs (F64.sub (.fin v) (.fin t))) (.fin r) = false := by
    rw [hsub]
    simp only [F64.abs, F64.le, decide_eq_false_iff_not, not_le]
    rw [abs_of_nonneg (by linarith)]
    linarith
  rw [hle, Bool.false_and]

theorem openSlot_late (l : Int) (h : Hit) (ht : Misdated h) : openSlot l h = .ub .floatToInt := by
  unfold openSlot
  rw [(toU64_none_iff h).mpr ht]

theorem placeIn_late (p : AbsParams) (hr : p.range ≤ 2 ^ 62) (h : Hit) (ht : Misdated h) (sl : List Slot) (he : EarlySlots sl) :
    placeIn p h sl = .ok none ∨ placeIn p h sl = .ub .floatToInt := by
  induction sl with
  | nil => left; rfl
  | cons s sl ih =>
    rw [placeIn]
    by_cases h0 : s.size = 0
    · right
      rw [if_pos h0, openSlot_late _ _ ht]
    · rw [if_neg h0, late_not_accepted p hr h ht s (he s (by simp))]
      rcases ih fun s' hs' => he s' (by simp [hs']) with h1 | h1 <;> rw [h1] <;> simp

theorem fitStep_late (p : AbsParams) (hr : p.range ≤ 2 ^ 62) (i : Nat) (h : Hit) (ht : Misdated h) (st : FitState)
    (he : EarlySlots st.slots) : fitStep p i h st = .ub .floatToInt := by
  unfold fitStep
  rcases placeIn_late p hr h ht st.slots he with h1 | h1
  · rw [h1]
    simp only
    rw [openSlot_late _ _ ht]
  · rw [h1]

theorem placeIn_early (p : AbsParams) (h : Hit) (ht : h.spidertime.toNat ≤ 2 ^ 58) (sl : List Slot) (he : EarlySlots sl)
    (r : List Slot × Int) (hp : placeIn p h sl = .ok (some r)) : EarlySlots r.1 := by
  induction sl generalizing r with
  | nil => simp [placeIn] at hp
  | cons s sl ih =>
    rw [placeIn] at hp
    have hs := he s (by simp)
    have hsl : EarlySlots sl := fun s' hs' => he s' (by simp [hs'])
    by_cases h0 : s.size = 0
    · rw [if_pos h0] at hp
      cases ho : openSlot s.label h with
      | ub u => rw [ho] at hp; simp at hp
      | throws e => rw [ho] at hp; simp at hp
      | ok s' =>
        rw [ho] at hp
        simp only [Res.ok.injEq, Option.some.injEq] at hp
        subst hp
        intro a ha
        rcases List.mem_cons.mp ha with rfl | ha
        · exact openSlot_early _ _ _ ht ho
        · exact hsl a ha
    · rw [if_neg h0] at hp
      by_cases hacc : s.accepts p h = true
      · rw [if_pos hacc] at hp
        simp only [Res.ok.injEq, Option.some.injEq] at hp
        subst hp
        intro a ha
        rcases List.mem_cons.mp ha with rfl | ha
        · exact hs
        · exact hsl a ha
      · rw [if_neg hacc] at hp
        cases hq : placeIn p h sl with
        | ub u => rw [hq] at hp; simp at hp
        | throws e => rw [hq] at hp; simp at hp
        | ok q =>
          rw [hq] at hp
          cases q with
          | none => simp at hp
          | some q =>
            simp only [Res.ok.injEq, Option.some.injEq] at hp
            subst hp
            intro a ha
            rcases List.mem_cons.mp ha with rfl | ha
            · exact hs
            · exact ih hsl q hq a ha

theorem fitStep_early (p : AbsParams) (i : Nat) (h : Hit) (ht : h.spidertime.toNat ≤ 2 ^ 58) (st st' : FitState)
    (he : EarlySlots st.slots) (hst : fitStep p i h st = .ok st') : EarlySlots st'.slots := by
  unfold fitStep at hst
  cases hp : placeIn p h st.slots with
  | ub u => rw [hp] at hst; simp at hst
  | throws e => rw [hp] at hst; simp at hst
  | ok q =>
    rw [hp] at hst
    cases q with
    | some q =>
      simp only [Res.ok.injEq] at hst
      subst hst
      exact placeIn_early p h ht _ he q hp
    | none =>
      simp only at hst
      cases ho : openSlot st.maxLabel h with
      | ub u => rw [ho] at hst; simp at hst
      | throws e => rw [ho] at hst; simp at hst
      | ok s =>
        rw [ho] at hst
        simp only [Res.ok.injEq] at hst
        subst hst
        intro a ha
        rcases List.mem_or_eq_of_mem_set ha with ha | rfl
        · exact he a ha
        · exact openSlot_early _ _ _ ht ho

theorem fitLoop_late (p : AbsParams) (hr : p.range ≤ 2 ^ 62) (i : Nat) (hs : List Hit)
    (hd : ∀ h ∈ hs, h.spidertime.toNat ≤ 2 ^ 58 ∨ Misdated h) (hl : ∃ h ∈ hs, Misdated h) (st : FitState)
    (he : EarlySlots st.slots) : fitLoop p i hs st = .ub .floatToInt := by
  induction hs generalizing i st with
  | nil => simp at hl
  | cons h hs ih =>
    simp only [fitLoop, bind, Res.bind]
    rcases hd h (by simp) with h1 | h1
    · rcases fitStep_ok p i h st with ⟨st', h2⟩ | ⟨h2, -⟩
      · rw [h2]
        simp only
        refine ih (i + 1) (fun g hg => hd g (by simp [hg])) ?_ st' (fitStep_early p i h h1 st st' he h2)
        obtain ⟨g, hg, hm⟩ := hl
        rcases List.mem_cons.mp hg with rfl | hg
        · unfold Misdated at hm
          omega
        · exact ⟨g, hg, hm⟩
      · rw [h2]
    · rw [fitStep_late p hr i h h1 st he]

/-- One misdated hit among the hits of a batch makes the clustering undefined, whatever the other hits. -/
theorem fit_late (o : AbsObj) (hr : o.params.range ≤ 2 ^ 62) (hs : List Hit)
    (hd : ∀ h ∈ hs, h.spidertime.toNat ≤ 2 ^ 58 ∨ Misdated h) (hl : ∃ h ∈ hs, Misdated h) :
    o.fit hs = .ub .floatToInt := by
  unfold AbsObj.fit AbsObj.fitWith
  have he : EarlySlots (initSlots numClusters) := by
    intro s hs
    unfold initSlots at hs
    obtain ⟨i, -, rfl⟩ := List.mem_map.mp hs
    simp
  rw [fitLoop_late o.params hr 0 hs hd hl _ he]
  rfl

end Verif.Props
