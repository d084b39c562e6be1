import Verif.Spec.Cut
import Verif.Props.EndToEnd

/-!
# C90: what a run finds in a stream that is cut anywhere
-/

namespace Verif.Props

open Verif Verif.Spec

/-- Complete chunks, the last of which may be cut short. -/
def CutOk : List Chunk → Prop
  | [] => True
  | [k] => StartsTPX k.header ∧ 8 * k.packets.length ≤ field k.header 48 16
  | k :: k' :: ks => k.WellFormed ∧ CutOk (k' :: ks)

/-- The batch of a chunk, cut or not. -/
def headBatch (off : Nat) (k : Chunk) : Batch := Batch.new off (field k.header 48 16 / 8) (headerChipId k.header)

theorem cutOk_head {k : Chunk} {ks : List Chunk} (h : CutOk (k :: ks)) :
    StartsTPX k.header ∧ CutOk ks ∧ (k.packets ++ streamWords ks).take (field k.header 48 16 / 8) = k.packets := by
  cases ks with
  | nil =>
    refine ⟨h.1, trivial, ?_⟩
    simp only [streamWords, List.flatMap_nil, List.append_nil]
    exact List.take_of_length_le (by have := h.2; omega)
  | cons k' ks =>
    refine ⟨h.1.1, h.2, ?_⟩
    rw [h.1.2, Nat.mul_div_cancel_left _ (by omega)]
    exact List.take_left

theorem batchPackets_head (pre ws : List U64) (h : U64) (num : Nat) :
    batchPackets ((pre ++ h :: ws).flatMap bytesOf) (8 * pre.length) num = ws.take num := by
  unfold batchPackets
  have e : 8 * pre.length + 8 = 8 * (pre.length + 1) := by omega
  have := drop_flatMap_bytesOf (pre ++ h :: ws) [] (pre.length + 1) (by simp)
  rw [List.append_nil, List.append_nil] at this
  rw [e, this, wordsOf_flatMap]
  have e2 : (pre ++ h :: ws).drop (pre.length + 1) = ws := by
    rw [show pre ++ h :: ws = (pre ++ [h]) ++ ws by simp]
    exact List.drop_left' (by simp)
  rw [e2]

theorem chunk_core_cut (x : CliCtx) (pre : List U64) (cs : List Chunk) (c : Clock)
    (hw : CutOk cs) (hn : ∀ k ∈ cs, k.NoLookAlike) (buf : Bytes)
    (hbuf : buf = (pre ++ streamWords cs).flatMap bytesOf) :
    ∃ bs1, locate x.mode buf (scan (streamWords cs) (8 * pre.length)) c = .ok (bs1, clockAfter x.mode c cs) ∧
      (oneAll ⟨x.mode, buf, x.params, x.solve⟩ (bs1.map fun b => ⟨b, []⟩)).bind (fun es => .ok (outputOf es)) =
        evAll x (perChunk x.mode c cs) := by
  induction cs generalizing pre c with
  | nil => exact ⟨[], rfl, rfl⟩
  | cons k ks ih =>
    obtain ⟨hstart, hok, htake⟩ := cutOk_head hw
    have e1 : pre ++ k.header :: (k.packets ++ streamWords ks) = (pre ++ k.header :: k.packets) ++ streamWords ks := by
      simp
    have e2 : 8 * pre.length + 8 + 8 * k.packets.length = 8 * (pre ++ k.header :: k.packets).length := by
      simp only [List.length_append, List.length_cons]; omega
    obtain ⟨bs1, i1, i2⟩ := ih (pre ++ k.header :: k.packets)
      (runPackets x.mode true (headerChipId k.header) k.packets c).1
      hok (fun d hd => hn d (by simp [hd])) (by rw [hbuf, streamWords_cons, e1])
    have hpk : batchPackets buf (8 * pre.length) (field k.header 48 16 / 8) = k.packets := by
      rw [hbuf, streamWords_cons, batchPackets_head, htake]
    have hlen : buf.length % 8 = 0 := by rw [hbuf, length_flatMap_bytesOf]; omega
    have hp : ¬ reachesPartial buf (8 * pre.length) (field k.header 48 16 / 8) := by
      unfold reachesPartial
      rintro ⟨h1, h2⟩
      apply h1
      omega
    have hscan : scan (k.header :: (k.packets ++ streamWords ks)) (8 * pre.length) =
        headBatch (8 * pre.length) k :: scan (streamWords ks) (8 * pre.length + 8 + 8 * k.packets.length) := by
      rw [scan, if_pos ((isHeader_iff_starts _).mpr hstart), scan_append, scan_none _ _ (hn k (by simp)), List.nil_append,
        headerPackets_field, headerChip_eq]
      rfl
    rw [streamWords_cons, hscan, e2]
    refine ⟨{ headBatch (8 * pre.length) k with clock := storedClock x.mode (headBatch (8 * pre.length) k) c } :: bs1,
      ?_, ?_⟩
    · simp only [locate, updateTimestamp_eq]
      have : (headBatch (8 * pre.length) k).index = 8 * pre.length ∧
          (headBatch (8 * pre.length) k).numPackets = field k.header 48 16 / 8 ∧
          (headBatch (8 * pre.length) k).chip = headerChipId k.header := ⟨rfl, rfl, rfl⟩
      rw [this.1, this.2.1, this.2.2, if_neg hp, hpk]
      simp only [bind, Res.bind]
      rw [i1]
      rfl
    · obtain ⟨B, hB⟩ : ∃ B, B = { headBatch (8 * pre.length) k with
          clock := storedClock x.mode (headBatch (8 * pre.length) k) c } := ⟨_, rfl⟩
      have f1 : B.index = 8 * pre.length ∧ B.numPackets = field k.header 48 16 / 8 ∧ B.chip = headerChipId k.header ∧
          B.hits = [] ∧ B.clock = storedClock x.mode (headBatch (8 * pre.length) k) c := by
        rw [hB]; exact ⟨rfl, rfl, rfl, rfl, rfl⟩
      rw [← hB]
      have h1 := one_eq x buf B (by rw [f1.1, f1.2.1]; exact hp) f1.2.2.2.1
      rw [f1.1, f1.2.1, f1.2.2.1, f1.2.2.2.2, hpk, run_stored] at h1
      simp only [List.map_cons, oneAll, perChunk, evAll, bind]
      rw [← i2]
      revert h1
      generalize ProcCtx.one _ _ = A
      generalize eventsOf x _ = B
      generalize oneAll _ _ = C
      intro h1
      cases A <;> cases B <;> simp [Res.bind] at h1
      · cases C <;> simp [Res.bind, outputOf, h1]
      · subst h1; rfl
      · subst h1; rfl

/-- A piece of the file: words without a header, then chunks, the last of which may be cut short. -/
theorem chunk_piece (x : CliCtx) (pre : List U64) (cs : List Chunk) (c : Clock) (hpre : ∀ w ∈ pre, ¬ StartsTPX w)
    (hw : CutOk cs) (hn : ∀ k ∈ cs, k.NoLookAlike) :
    chunkOutput (chunkEvents x ((pre ++ streamWords cs).flatMap bytesOf) c) =
      (evAll x (perChunk x.mode c cs)).bind fun v => .ok (v, clockAfter x.mode c cs) := by
  obtain ⟨bs1, h1, h2⟩ := chunk_core_cut x pre cs c hw hn _ rfl
  unfold chunkOutput chunkEvents
  rw [findTPX3H_eq, wordsOf_flatMap, scan_append, scan_none pre _ hpre, List.nil_append, Nat.zero_add]
  simp only [bind, Res.bind, h1]
  rw [← h2]
  generalize oneAll _ _ = C
  cases C <;> rfl

/-- Where the next cut falls: the chunks before it (the last one cut short) and the packets after it. -/
theorem split_cut (n : Nat) (hn0 : 0 < n) (ks : List Chunk) (o m : Nat) (hm : m = n - o % n)
    (hw : ∀ k ∈ ks, k.WellFormed) (hn : ∀ k ∈ ks, k.NoLookAlike) :
    ∃ (as bs : List Chunk) (tail : List U64),
      (streamWords ks).take m = streamWords as ∧ (streamWords ks).drop m = tail ++ streamWords bs ∧
      CutOk as ∧ (∀ k ∈ as, k.NoLookAlike) ∧ (∀ w ∈ tail, ¬ StartsTPX w) ∧
      (∀ k ∈ bs, k.WellFormed) ∧ (∀ k ∈ bs, k.NoLookAlike) ∧
      cutChunks n o ks = as ++ cutChunks n (o + (streamWords ks).length - (streamWords bs).length) bs ∧
      (streamWords bs).length ≤ (streamWords ks).length := by
  induction ks generalizing o m with
  | nil => exact ⟨[], [], [], by simp [streamWords], by simp [streamWords], trivial, by simp, by simp, by simp, by simp,
      rfl, le_rfl⟩
  | cons k ks ih =>
    have hlt := Nat.mod_lt o hn0
    have hm1 : m - 1 = n - o % n - 1 := by omega
    by_cases hfit : 1 + k.packets.length < m
    · have hmod : (o + 1 + k.packets.length) % n = o % n + 1 + k.packets.length := by
        rw [Nat.add_assoc, Nat.add_mod, Nat.mod_eq_of_lt (a := 1 + k.packets.length) (by omega), Nat.mod_eq_of_lt (by omega)]
        omega
      obtain ⟨as, bs, tail, h1, h2, h3, h4, h5, h6, h7, h8, h9⟩ := ih (o + 1 + k.packets.length)
        (m - (1 + k.packets.length)) (by omega) (fun d hd => hw d (by simp [hd])) (fun d hd => hn d (by simp [hd]))
      have hcons : streamWords (k :: ks) = (k.header :: k.packets) ++ streamWords ks := by rw [streamWords_cons]; rfl
      have hl : (k.header :: k.packets).length = 1 + k.packets.length := by simp; omega
      refine ⟨k :: as, bs, tail, ?_, ?_, ?_, ?_, h5, h6, h7, ?_, ?_⟩
      · rw [hcons, List.take_append, List.take_of_length_le (by omega), hl, h1, streamWords_cons]
        rfl
      · rw [hcons, List.drop_append, List.drop_of_length_le (by omega), hl, h2]
        rfl
      · cases as with
        | nil => exact ⟨(hw k (by simp)).1, by rw [(hw k (by simp)).2]⟩
        | cons a as => exact ⟨hw k (by simp), h3⟩
      · intro d hd
        rcases List.mem_cons.mp hd with rfl | hd
        · exact hn d (by simp)
        · exact h4 d hd
      · rw [cutChunks, h8, List.take_of_length_le (by omega)]
        have : o + 1 + k.packets.length + (streamWords ks).length - (streamWords bs).length =
            o + (streamWords (k :: ks)).length - (streamWords bs).length := by
          rw [streamWords_cons]; simp; omega
        rw [this]
        rfl
      · rw [streamWords_cons]; simp; omega
    · have hmpos : 0 < m := by omega
      obtain ⟨m', rfl⟩ : ∃ m', m = m' + 1 := ⟨m - 1, by omega⟩
      refine ⟨[⟨k.header, k.packets.take m'⟩], ks, k.packets.drop m', ?_, ?_, ?_, ?_, ?_, ?_, ?_, ?_, ?_⟩
      · rw [streamWords_cons, List.take_succ_cons, List.take_append, streamWords_cons]
        have : m' - k.packets.length = 0 := by omega
        simp [this, streamWords]
      · rw [streamWords_cons, List.drop_succ_cons, List.drop_append]
        have : m' - k.packets.length = 0 := by omega
        simp [this]
      · refine ⟨(hw k (by simp)).1, ?_⟩
        rw [(hw k (by simp)).2, List.length_take]
        omega
      · intro d hd
        rw [List.mem_singleton] at hd
        subst hd
        intro w hw'
        exact hn k (by simp) w (List.mem_of_mem_take hw')
      · intro w hw'
        exact hn k (by simp) w (List.mem_of_mem_drop hw')
      · exact fun d hd => hw d (by simp [hd])
      · exact fun d hd => hn d (by simp [hd])
      · rw [cutChunks, ← hm1]
        have : o + (streamWords (k :: ks)).length - (streamWords ks).length = o + 1 + k.packets.length := by
          rw [streamWords_cons]; simp; omega
        rw [this]
        rfl
      · rw [streamWords_cons]; simp; omega

/-- The same when the piece begins with packets without a header. -/
theorem split_piece (n : Nat) (hn0 : 0 < n) (tail : List U64) (ks : List Chunk) (p : Nat) (hp : n ∣ p)
    (ht : ∀ w ∈ tail, ¬ StartsTPX w) (hw : ∀ k ∈ ks, k.WellFormed) (hn : ∀ k ∈ ks, k.NoLookAlike) :
    ∃ (pre : List U64) (as bs : List Chunk) (tail' : List U64),
      (tail ++ streamWords ks).take n = pre ++ streamWords as ∧ (tail ++ streamWords ks).drop n = tail' ++ streamWords bs ∧
      (∀ w ∈ pre, ¬ StartsTPX w) ∧ CutOk as ∧ (∀ k ∈ as, k.NoLookAlike) ∧ (∀ w ∈ tail', ¬ StartsTPX w) ∧
      (∀ k ∈ bs, k.WellFormed) ∧ (∀ k ∈ bs, k.NoLookAlike) ∧
      cutChunks n (p + tail.length) ks =
        as ++ cutChunks n (p + (tail ++ streamWords ks).length - (streamWords bs).length) bs := by
  obtain ⟨q, rfl⟩ := hp
  by_cases h : n ≤ tail.length
  · refine ⟨tail.take n, [], ks, tail.drop n, ?_, ?_, fun w hw' => ht w (List.mem_of_mem_take hw'), trivial, by simp,
      fun w hw' => ht w (List.mem_of_mem_drop hw'), hw, hn, ?_⟩
    · rw [List.take_append, show n - tail.length = 0 by omega]
      simp [streamWords]
    · rw [List.drop_append, show n - tail.length = 0 by omega]
      simp
    · rw [List.nil_append, List.length_append]
      congr 1
      omega
  · have hmod : (n * q + tail.length) % n = tail.length := by
      rw [Nat.mul_add_mod, Nat.mod_eq_of_lt (by omega)]
    obtain ⟨as, bs, tail', h1, h2, h3, h4, h5, h6, h7, h8, h9⟩ := split_cut n hn0 ks (n * q + tail.length)
      (n - tail.length) (by rw [hmod]) hw hn
    refine ⟨tail, as, bs, tail', ?_, ?_, ht, h3, h4, h5, h6, h7, ?_⟩
    · rw [List.take_append, List.take_of_length_le (by omega), h1]
    · rw [List.drop_append, List.drop_of_length_le (by omega), h2]
      rfl
    · rw [h8, List.length_append]
      congr 2
      omega

theorem cliLoop_cut (x : CliCtx) (n : Nat) (hn0 : 0 < n) (ws : List U64) (fuel p : Nat) (tail : List U64)
    (ks : List Chunk) (c : Clock) (out : List EventBatch) (hdrop : ws.drop p = tail ++ streamWords ks)
    (hple : p ≤ ws.length) (hp : p < ws.length → n ∣ p) (ht : ∀ w ∈ tail, ¬ StartsTPX w)
    (hw : ∀ k ∈ ks, k.WellFormed) (hn : ∀ k ∈ ks, k.NoLookAlike) (hfuel : ws.length - p < fuel) :
    runOutput (cliLoop x (8 * n) fuel ⟨ws.flatMap bytesOf, 8 * p⟩ c out) =
      (evAll x (perChunk x.mode c (cutChunks n (p + tail.length) ks))).bind fun v =>
        .ok (some (outputOf out ++ v, clockAfter x.mode c (cutChunks n (p + tail.length) ks))) := by
  induction fuel generalizing p tail ks c out with
  | zero => omega
  | succ fuel ih =>
    have hlen := length_flatMap_bytesOf ws
    have hrest : (tail ++ streamWords ks).length = ws.length - p := by rw [← hdrop, List.length_drop]
    rw [cliLoop]
    by_cases hend : ws.length ≤ p
    · have hk : ks = [] := by
        rw [← streamBytes_nil_iff, streamBytes_length]
        rw [List.length_append] at hrest
        omega
      rw [if_pos (by simp only [Reader.isEOF, decide_eq_true_eq]; omega), hk]
      simp [runOutput, evAll, perChunk, clockAfter, cutChunks, Res.bind]
    · rw [if_neg (by simp only [Reader.isEOF, decide_eq_true_eq]; omega)]
      obtain ⟨r1, r2, r3⟩ := readChunk_spec ⟨ws.flatMap bytesOf, 8 * p⟩ (8 * n) (by simp only; omega)
      simp only at r1 r2 r3
      have hr : (Reader.readChunk ⟨ws.flatMap bytesOf, 8 * p⟩ (8 * n)).2 =
          ⟨ws.flatMap bytesOf, 8 * min (p + n) ws.length⟩ := by
        rcases hh : (Reader.readChunk ⟨ws.flatMap bytesOf, 8 * p⟩ (8 * n)).2 with ⟨f, q⟩
        rw [hh] at r2 r3
        simp only at r2 r3
        rw [r2, r3]
        congr 1
        omega
      have hne : (Reader.readChunk ⟨ws.flatMap bytesOf, 8 * p⟩ (8 * n)).1 ≠ [] := by
        rw [r1]
        intro h0
        have := congrArg List.length h0
        rw [List.length_take, List.length_drop, List.length_nil] at this
        omega
      have hbytes : ((ws.flatMap bytesOf).drop (8 * p)).take (8 * n) = ((ws.drop p).take n).flatMap bytesOf := by
        have h1 := drop_flatMap_bytesOf ws [] p hple
        rw [List.append_nil, List.append_nil] at h1
        rw [h1]
        by_cases hle : n ≤ (ws.drop p).length
        · conv_lhs => rw [← List.take_append_drop n (ws.drop p), List.flatMap_append]
          exact List.take_left' (by rw [length_flatMap_bytesOf, List.length_take]; omega)
        · rw [List.take_of_length_le (l := ws.drop p) (by omega), List.take_of_length_le]
          rw [length_flatMap_bytesOf]; omega
      obtain ⟨pre, as, bs, tail', s1, s2, s3, s4, s5, s6, s7, s8, s9⟩ := split_piece n hn0 tail ks p (hp (by omega)) ht hw hn
      simp only
      rw [if_neg hne, hr, r1, hbytes, hdrop, s1]
      have hch := chunk_piece x pre as c s3 s4 s5
      have hdrop' : ws.drop (min (p + n) ws.length) = tail' ++ streamWords bs := by
        rw [← s2, ← hdrop, List.drop_drop]
        by_cases hle : p + n ≤ ws.length
        · rw [min_eq_left hle]
        · rw [min_eq_right (by omega), List.drop_of_length_le le_rfl, List.drop_of_length_le (by omega)]
      have hl' := congrArg List.length hdrop'
      rw [List.length_drop, List.length_append] at hl'
      have hoff : p + (tail ++ streamWords ks).length - (streamWords bs).length = min (p + n) ws.length + tail'.length := by
        omega
      rw [s9, hoff, (perChunk_append _ _ _ _).1, (perChunk_append _ _ _ _).2, evAll_append]
      have hp' : min (p + n) ws.length < ws.length → n ∣ min (p + n) ws.length := by
        intro h
        rw [min_eq_left (by omega)]
        exact Nat.dvd_add (hp (by omega)) (dvd_refl n)
      cases hce : chunkEvents x ((pre ++ streamWords as).flatMap bytesOf) c with
      | ok e =>
        rw [hce] at hch
        simp only
        cases hev : evAll x (perChunk x.mode c as) with
        | ok v =>
          rw [hev] at hch
          simp only [chunkOutput, Res.bind, Res.ok.injEq, Prod.mk.injEq] at hch
          rw [ih _ tail' bs e.2 (out ++ e.1) hdrop' (min_le_right _ _) hp' s6 s7 s8 (by omega), hch.2]
          simp only [Res.bind]
          have ho : outputOf (out ++ e.1) = outputOf out ++ v := by rw [← hch.1]; simp [outputOf]
          rw [ho]
          generalize evAll x _ = E
          cases E <;> simp [List.append_assoc]
        | throws u => exact absurd hev (evAll_no_throw _ _ _)
        | ub u => rw [hev] at hch; simp [chunkOutput, Res.bind] at hch
      | throws u =>
        rw [hce] at hch
        cases hev : evAll x (perChunk x.mode c as) with
        | ok v => rw [hev] at hch; simp [chunkOutput, Res.bind] at hch
        | throws u => exact absurd hev (evAll_no_throw _ _ _)
        | ub u => rw [hev] at hch; simp [chunkOutput, Res.bind] at hch
      | ub u =>
        rw [hce] at hch
        cases hev : evAll x (perChunk x.mode c as) with
        | ok v => rw [hev] at hch; simp [chunkOutput, Res.bind] at hch
        | throws u => exact absurd hev (evAll_no_throw _ _ _)
        | ub u' =>
          rw [hev] at hch
          simp only [chunkOutput, Res.bind, Res.ub.injEq] at hch
          subst hch
          rfl

/-- A run in pieces of `n` words, wherever the cuts fall. -/
theorem cliRun_cut (x : CliCtx) (n : Nat) (hn0 : 0 < n) (cs : List Chunk) (hcs : cs ≠ [])
    (hw : ∀ k ∈ cs, k.WellFormed) (hn : ∀ k ∈ cs, k.NoLookAlike) (fuel : Nat) (hfuel : (streamWords cs).length < fuel) :
    runOutput (cliRun x (8 * n) fuel (streamBytes cs)) =
      (evAll x (perChunk x.mode Clock.zero (cutChunks n 0 cs))).bind fun v =>
        .ok (some (v, clockAfter x.mode Clock.zero (cutChunks n 0 cs))) := by
  have hne : (streamBytes cs).length ≠ 0 := fun h => hcs ((streamBytes_nil_iff cs).mp h)
  unfold cliRun Reader.open
  rw [if_neg hne]
  simp only
  have h := cliLoop_cut x n hn0 (streamWords cs) fuel 0 [] cs Clock.zero [] (by simp) (by omega) (fun _ => Nat.dvd_zero n)
    (by simp) hw hn (by omega)
  rw [Nat.mul_zero] at h
  rw [show streamBytes cs = (streamWords cs).flatMap bytesOf from rfl, h]
  simp [outputOf]

/-- C90, the hits: whatever the stream of complete chunks without look-alikes and wherever the cuts fall, a run that ends has one
batch for every header, with the hits of the packets before the next cut and no others, dated with the times carried through the
kept packets; and the events of every batch are those of its hits. -/
theorem c90_hits (x : CliCtx) (n : Nat) (hn0 : 0 < n) (cs : List Chunk) (hcs : cs ≠ [])
    (hw : ∀ k ∈ cs, k.WellFormed) (hn : ∀ k ∈ cs, k.NoLookAlike) (fuel : Nat) (bs : List EventBatch) (c : Clock)
    (h : cliRun x (8 * n) fuel (streamBytes cs) = .ok (some (bs, c))) :
    bs.map (fun b => b.batch.hits) = chunkHits x.mode ⟨0, 0, 0⟩ (cutChunks n 0 cs) ∧
    ∀ b ∈ bs, eventsOf x b.batch.hits = .ok b.neutrons := by
  refine ⟨?_, fun b hb => (cliRun_batches _ _ _ _ _ _ h b hb).2⟩
  have h' := cliRun_mono x (8 * n) fuel ((streamWords cs).length + 1) _ _ h
  have hb := cliRun_cut x n hn0 cs hcs hw hn (fuel + ((streamWords cs).length + 1)) (by omega)
  rw [h'] at hb
  simp only [runOutput, Res.bind, Option.map_some] at hb
  cases he : evAll x (perChunk x.mode Clock.zero (cutChunks n 0 cs)) with
  | ub u => rw [he] at hb; simp at hb
  | throws m => rw [he] at hb; simp at hb
  | ok v =>
    rw [he] at hb
    simp only [Res.ok.injEq, Option.some.injEq, Prod.mk.injEq] at hb
    obtain ⟨e1, -⟩ := evAll_fst x _ v he
    rw [← hb.1] at e1
    rw [show (⟨0, 0, 0⟩ : Times) = Clock.zero.times from rfl, ← perChunk_hits x.mode Clock.zero (by decide), ← e1, outputOf,
      List.map_map]
    rfl

/-- C90, counting: every packet of the stream is kept or cut off. -/
theorem c90_count (n : Nat) (cs : List Chunk) (o : Nat) :
    ((cutChunks n o cs).map fun k => k.packets.length).sum + cutOff n o cs = (cs.map fun k => k.packets.length).sum := by
  induction cs generalizing o with
  | nil => rfl
  | cons k ks ih =>
    have := ih (o + 1 + k.packets.length)
    simp only [cutChunks, cutOff, List.map_cons, List.sum_cons, List.length_take]
    omega

/-- C90: nothing is cut off exactly if the chunks that are left are those of the stream. -/
theorem c90_nothing_lost (n : Nat) (cs : List Chunk) (o : Nat) : cutOff n o cs = 0 ↔ cutChunks n o cs = cs := by
  induction cs generalizing o with
  | nil => exact ⟨fun _ => rfl, fun _ => rfl⟩
  | cons k ks ih =>
    simp only [cutOff, cutChunks, Nat.add_eq_zero_iff, ih, List.cons.injEq]
    refine and_congr_left fun _ => ⟨fun h => ?_, fun h => ?_⟩
    · rw [List.take_of_length_le (by omega)]
    · have := congrArg (fun c : Chunk => c.packets.length) h
      simp only [List.length_take] at this
      omega

/-- C90: the loss is at most 8191 packets for every cut. -/
theorem c90_bound (n : Nat) (hn0 : 0 < n) (cs : List Chunk) (hw : ∀ k ∈ cs, k.WellFormed) :
    cutOff n 0 cs ≤ 8191 * ((streamWords cs).length / n) := by
  have key : ∀ (cs : List Chunk) (o : Nat), (∀ k ∈ cs, k.WellFormed) →
      cutOff n o cs + 8191 * (o / n) ≤ 8191 * ((o + (streamWords cs).length) / n) := by
    intro cs
    induction cs with
    | nil => intro o _; simp [cutOff, streamWords]
    | cons k ks ih =>
      intro o hw
      have h1 := ih (o + 1 + k.packets.length) (fun d hd => hw d (by simp [hd]))
      have e : o + 1 + k.packets.length + (streamWords ks).length = o + (streamWords (k :: ks)).length := by
        rw [streamWords_cons]; simp; omega
      rw [e] at h1
      have hlen : k.packets.length ≤ 8191 := by
        have h2 := (hw k (by simp)).2
        have h3 : field k.header 48 16 < 2 ^ 16 := Nat.mod_lt _ (by decide)
        omega
      have hstep : (k.packets.length - (n - o % n - 1)) + 8191 * (o / n) ≤ 8191 * ((o + 1 + k.packets.length) / n) := by
        by_cases hc : k.packets.length ≤ n - o % n - 1
        · have : o / n ≤ (o + 1 + k.packets.length) / n := Nat.div_le_div_right (by omega)
          rw [Nat.sub_eq_zero_of_le hc]
          omega
        · have : o / n + 1 ≤ (o + 1 + k.packets.length) / n := by
            rw [Nat.le_div_iff_mul_le hn0, Nat.add_mul, Nat.mul_comm]
            have := Nat.mod_add_div o n
            omega
          omega
      simp only [cutOff]
      omega
  have := key cs 0 hw
  simpa using this

/-- C90: nothing is lost of a stream that fits in one piece. -/
theorem c90_one_piece (n : Nat) (cs : List Chunk) (h : (streamWords cs).length ≤ n) : cutOff n 0 cs = 0 := by
  have key : ∀ (cs : List Chunk) (o : Nat), o + (streamWords cs).length ≤ n → cutOff n o cs = 0 := by
    intro cs
    induction cs with
    | nil => intro o _; rfl
    | cons k ks ih =>
      intro o ho
      rw [streamWords_cons] at ho
      simp only [List.length_cons, List.length_append] at ho
      rw [cutOff, ih _ (by omega), Nat.mod_eq_of_lt (by omega)]
      omega
  exact key cs 0 (by omega)

/-- A stream of two chunks cut after four words: of the first chunk three packets are left, one of them a trigger. -/
def exCut : List Chunk :=
  [⟨0x0028000033585054#64, [0x6F00000000005000#64, exPacket 0x1234 10, exPacket 0x1235 11, exPacket 0x4234 10, exPacket 0x4235 11]⟩,
   ⟨0x0008000033585054#64, [exPacket 0x1235 11]⟩]

example : exCut ≠ [] ∧ (∀ k ∈ exCut, k.WellFormed) ∧ (∀ k ∈ exCut, k.NoLookAlike) ∧ cutOff 4 0 exCut = 2 ∧
    (chunkHits .tdc ⟨0, 0, 0⟩ (cutChunks 4 0 exCut)).map List.length = [2, 1] ∧
    (chunkHits .tdc ⟨0, 0, 0⟩ exCut).map List.length = [4, 1] := by
  refine ⟨by decide, by decide, ?_, by decide, by decide +kernel, by decide +kernel⟩
  intro k hk w hw
  simp only [exCut, List.mem_cons, List.not_mem_nil, or_false] at hk
  rcases hk with rfl | rfl
  · simp only [List.mem_cons, List.not_mem_nil, or_false] at hw
    rcases hw with rfl | rfl | rfl | rfl | rfl <;> decide
  · simp only [List.mem_cons, List.not_mem_nil, or_false] at hw
    subst hw
    decide

/-- C84 wherever the cuts fall: every neutron of the kept packets becomes one event.  Missing: neutrons with hits in two chunks,
for which it is false (`c84_false_split`). -/
theorem c84_cut_partial (o : ProgramOptions) (s : Settings) (solve : List GaussRow → F64 × F64) (fuel : Nat)
    (cs : List Chunk) (hcs : cs ≠ []) (hw : ∀ k ∈ cs, k.WellFormed) (hn : ∀ k ∈ cs, k.NoLookAlike)
    (n : Nat) (hn0 : 0 < n) (hsize : o.chunkSize = 8 * n)
    (w : Outputs) (h : mainCore o s solve (fun _ => {}) fuel (streamBytes cs) = .ok (.finished w))
    (r : ℚ) (hp : s.params.feature = .fin r) (hr : |r| ≤ 2 ^ 20) (hrange : s.params.range < 2 ^ 64)
    (hg : o.mode = .gdc → ∀ hs ∈ chunkHits .gdc ⟨0, 0, 0⟩ (cutChunks n 0 cs), ∀ x ∈ hs, x.spidertime.toNat < 2 ^ 48)
    (ht : o.mode = .tdc → ∀ hs ∈ chunkHits .tdc ⟨0, 0, 0⟩ (cutChunks n 0 cs), ∀ x ∈ hs, ∃ t, x.tof = some t ∧ t.toNat < 2 ^ 22)
    (neutron : List (List Int))
    (hres : List.Forall₂ (Resolved s.params.range r) (chunkHits o.mode ⟨0, 0, 0⟩ (cutChunks n 0 cs)) neutron) :
    ∃ es : List Neutron,
      List.Forall₂ (IsEventOf 1)
        (List.zipWith (visible s.params.minSize) (chunkHits o.mode ⟨0, 0, 0⟩ (cutChunks n 0 cs)) neutron).flatten es ∧
      w.totalNeutrons.toNat = es.length % 2 ^ 64 ∧
      (o.outEvents ≠ [] → (es = [] → w.events = []) ∧ (es ≠ [] →
        ∀ v ∈ neutronAttrs, column w.events "neutrons".toList v.1 = some (es.map v.2))) :=
  events_of_run o s solve fuel _ _
    (fun bs c hrun => by rw [hsize] at hrun; exact (c90_hits ⟨o.mode, s.params, solve⟩ n hn0 cs hcs hw hn fuel bs c hrun).1)
    w h r hp hr hrange (fun hm hs hh => hg hm hs (hm ▸ hh)) (fun hm hs hh => ht hm hs (hm ▸ hh)) neutron hres

end Verif.Props
