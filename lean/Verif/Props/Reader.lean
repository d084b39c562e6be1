import Verif.Model.Cli
import Verif.Props.Scan
import Verif.Props.Parallel

/-!
# Reading and processing in chunks (C21, C22)
-/

namespace Verif.Props

open Verif Verif.Spec

/-! ## C21 -/

/-- The chunks returned by calls with the given chunk sizes, and the reader afterwards. -/
def readMany : Reader → List Nat → List Bytes × Reader
  | r, [] => ([], r)
  | r, n :: ns => ((r.readChunk n).1 :: (readMany (r.readChunk n).2 ns).1, (readMany (r.readChunk n).2 ns).2)

theorem readChunk_spec (r : Reader) (n : Nat) (h : r.pos ≤ r.file.length) :
    (r.readChunk n).1 = (r.file.drop r.pos).take n ∧ (r.readChunk n).2.file = r.file ∧
    (r.readChunk n).2.pos = min (r.pos + n) r.file.length := by
  unfold Reader.readChunk
  split_ifs with h1
  · have : r.pos = r.file.length := by omega
    refine ⟨by rw [this]; simp, rfl, by simp only; omega⟩
  · refine ⟨?_, rfl, by simp only; omega⟩
    simp only
    rw [← List.length_drop, ← List.take_eq_take_min]

theorem readMany_spec (r : Reader) (ns : List Nat) (h : r.pos ≤ r.file.length) :
    (readMany r ns).1.flatten = (r.file.drop r.pos).take ns.sum ∧ (readMany r ns).2.file = r.file ∧
    (readMany r ns).2.pos = min (r.pos + ns.sum) r.file.length := by
  induction ns generalizing r with
  | nil =>
    refine ⟨by simp [readMany], rfl, ?_⟩
    simp only [readMany, List.sum_nil]
    omega
  | cons n ns ih =>
    obtain ⟨a1, a2, a3⟩ := readChunk_spec r n h
    obtain ⟨b1, b2, b3⟩ := ih (r.readChunk n).2 (by rw [a2, a3]; omega)
    refine ⟨?_, by rw [readMany, b2, a2], ?_⟩
    · rw [readMany, List.flatten_cons, b1, a1, a2, a3, List.sum_cons, List.take_add, List.drop_drop]
      congr 1
      rcases Nat.le_total (r.pos + n) r.file.length with h' | h'
      · rw [Nat.min_eq_left h']
      · rw [Nat.min_eq_right h', List.drop_of_length_le (Nat.le_refl _), List.drop_of_length_le h']
    · rw [readMany, b3, a3, a2, List.sum_cons]
      omega

/-- C21: whatever the chunk sizes, what has been returned is the file up to the position, and the end is reported
exactly when everything has been returned. -/
theorem c21_prefix (file : Bytes) (r : Reader) (h : Reader.open file = .ok r) (sizes : List Nat) :
    (readMany r sizes).1.flatten = file.take sizes.sum ∧
    ((readMany r sizes).2.isEOF = true ↔ (readMany r sizes).1.flatten = file) := by
  unfold Reader.open at h
  split_ifs at h with h0
  injection h with h
  subst h
  obtain ⟨a1, a2, a3⟩ := readMany_spec ⟨file, 0⟩ sizes (Nat.zero_le _)
  simp only [List.drop_zero, Nat.zero_add] at a1 a2 a3
  refine ⟨a1, ?_⟩
  rw [a1]
  unfold Reader.isEOF
  rw [a2, a3, decide_eq_true_iff, List.take_eq_self_iff]
  omega

/-- C21: a call with a positive size returns an empty chunk exactly at the end, and never more than asked for. -/
theorem c21_nonempty (file : Bytes) (r : Reader) (h : Reader.open file = .ok r) (sizes : List Nat) (n : Nat) (hn : 0 < n) :
    (((readMany r sizes).2.readChunk n).1 = [] ↔ (readMany r sizes).2.isEOF = true) ∧
    ((readMany r sizes).2.readChunk n).1.length ≤ n := by
  unfold Reader.open at h
  split_ifs at h with h0
  injection h with h
  subst h
  obtain ⟨-, a2, a3⟩ := readMany_spec ⟨file, 0⟩ sizes (Nat.zero_le _)
  obtain ⟨b1, -, -⟩ := readChunk_spec (readMany ⟨file, 0⟩ sizes).2 n (by rw [a2, a3]; simp only; omega)
  rw [b1]
  constructor
  · unfold Reader.isEOF
    rw [decide_eq_true_iff]
    rw [← List.length_eq_zero_iff, List.length_take, List.length_drop]
    omega
  · rw [List.length_take]; omega

/-- C21: with positive sizes the end is reached after at most as many calls as the file has bytes, and then the
chunks are the file. -/
theorem c21_terminates (file : Bytes) (r : Reader) (h : Reader.open file = .ok r) (sizes : List Nat)
    (hpos : ∀ n ∈ sizes, 0 < n) (hlen : file.length ≤ sizes.length) :
    (readMany r sizes).1.flatten = file ∧ (readMany r sizes).2.isEOF = true := by
  obtain ⟨h1, h2⟩ := c21_prefix file r h sizes
  have hs : sizes.length ≤ sizes.sum := by
    clear h1 h2 hlen
    induction sizes with
    | nil => simp
    | cons n ns ih =>
      have := hpos n (by simp)
      have := ih fun m hm => hpos m (by simp [hm])
      simp only [List.length_cons, List.sum_cons]
      omega
  have e : (readMany r sizes).1.flatten = file := by rw [h1, List.take_of_length_le (by omega)]
  exact ⟨e, h2.mpr e⟩

/-- C21, empty file: it cannot be opened at all. -/
theorem c21_empty_file : ∃ e, Reader.open [] = .throws e := ⟨_, rfl⟩

example : ∃ r, Reader.open [1, 2, 3, 4, 5] = .ok r ∧ (readMany r [2, 2, 2]).1 = [[1, 2], [3, 4], [5]] := ⟨_, rfl, by decide⟩

/-! ## C22 -/

/-- What goes to the output for each batch: its hits and its events. -/
def outputOf (es : List EventBatch) : List (List Hit × List Neutron) := es.map fun e => (e.batch.hits, e.neutrons)

/-- Events of a list of hits. -/
def eventsOf (x : CliCtx) (hs : List Hit) : Res (List Neutron) := do
  let a ← (AbsObj.new x.params).fit hs
  a.getEvents x.solve hs

def evAll (x : CliCtx) : List (List Hit) → Res (List (List Hit × List Neutron))
  | [] => .ok []
  | hs :: rest => do
    let es ← eventsOf x hs
    let r ← evAll x rest
    .ok ((hs, es) :: r)

theorem evAll_append (x : CliCtx) (as bs : List (List Hit)) :
    evAll x (as ++ bs) = (evAll x as).bind fun a => (evAll x bs).bind fun b => .ok (a ++ b) := by
  induction as with
  | nil => cases h : evAll x bs <;> simp [evAll, Res.bind, h]
  | cons a as ih =>
    simp only [List.cons_append, evAll, ih, bind]
    cases eventsOf x a <;> simp only [Res.bind]
    cases evAll x as <;> simp only
    cases evAll x bs <;> simp

theorem eventsOf_no_throw (x : CliCtx) (hs : List Hit) (e : String) : eventsOf x hs ≠ .throws e := by
  unfold eventsOf
  rcases fit_ok (AbsObj.new x.params) hs with ⟨a, ha⟩ | ⟨hu, -⟩
  · rw [ha]
    simp only [bind, Res.bind]
    have hc := fit_consistent ha
    have hlen := (c24_labels _ a _ ha).1
    have hm : a.method = "centroid" := by
      obtain ⟨a', e1, -, -, -, e5, -⟩ := fit_same_params (a' := AbsObj.new x.params) rfl hs ha
      rw [ha] at e1
      injection e1 with e1
      subst e1
      exact e5
    rcases getEvents_cases (solve := x.solve) hc hs with ⟨h1, -⟩ | ⟨-, -, h3, -⟩ | ⟨-, -, h3⟩ | ⟨-, -, -, h3⟩
    · exact absurd hlen h1
    · exact absurd hm h3
    · rw [h3]; simp
    · rcases h3 with ⟨r, h3⟩ | ⟨h3, -⟩ <;> rw [h3] <;> simp
  · rw [hu]; simp [bind, Res.bind]

/-- Timestamps after the packets of some chunks. -/
def clockAfter (m : Mode) : Clock → List Chunk → Clock
  | c, [] => c
  | c, k :: ks => clockAfter m (runPackets m true (headerChipId k.header) k.packets c).1 ks

/-- Hits of each chunk. -/
def perChunk (m : Mode) : Clock → List Chunk → List (List Hit)
  | _, [] => []
  | c, k :: ks => (runPackets m true (headerChipId k.header) k.packets c).2 ::
      perChunk m (runPackets m true (headerChipId k.header) k.packets c).1 ks

theorem perChunk_append (m : Mode) (c : Clock) (ks ls : List Chunk) :
    perChunk m c (ks ++ ls) = perChunk m c ks ++ perChunk m (clockAfter m c ks) ls ∧
    clockAfter m c (ks ++ ls) = clockAfter m (clockAfter m c ks) ls := by
  induction ks generalizing c with
  | nil => exact ⟨rfl, rfl⟩
  | cons k ks ih =>
    simp only [List.cons_append, perChunk, clockAfter, (ih _).1, (ih _).2]
    exact ⟨trivial, trivial⟩

theorem run_stored (m : Mode) (b : Batch) (c : Clock) (chip : Int) (ws : List U64) :
    (runPackets m true chip ws (storedClock m b c)).2 = (runPackets m true chip ws c).2 := by
  cases m with
  | gdc => rfl
  | tdc =>
    rw [(runTdc_spec _ _ _).2, (runTdc_spec _ _ _).2]
    exact (hitsT_congr chip _ (storedClock .tdc b c).times c.times rfl).1

theorem one_eq (x : CliCtx) (buf : Bytes) (b : Batch) (hp : ¬ reachesPartial buf b.index b.numPackets) (hb : b.hits = []) :
    (ProcCtx.one ⟨x.mode, buf, x.params, x.solve⟩ ⟨b, []⟩).bind (fun e => .ok (e.batch.hits, e.neutrons)) =
      (eventsOf x (runPackets x.mode true b.chip (batchPackets buf b.index b.numPackets) b.clock).2).bind
        fun es => .ok ((runPackets x.mode true b.chip (batchPackets buf b.index b.numPackets) b.clock).2, es) := by
  unfold ProcCtx.one eventsOf
  simp only [extractHits_eq, if_neg hp, hb, List.nil_append, bind, Res.bind]
  cases AbsObj.fit (AbsObj.new x.params)
      (runPackets x.mode true b.chip (batchPackets buf b.index b.numPackets) b.clock).2 with
  | ok a =>
    simp only
    cases AbsObj.getEvents x.solve a
      (runPackets x.mode true b.chip (batchPackets buf b.index b.numPackets) b.clock).2 <;> rfl
  | throws e => rfl
  | ub u => rfl

/-- Result of a chunk, as seen in the output. -/
def chunkOutput (r : Res (List EventBatch × Clock)) : Res (List (List Hit × List Neutron) × Clock) :=
  r.bind fun e => .ok (outputOf e.1, e.2)

theorem chunk_core (x : CliCtx) (pre : List U64) (cs : List Chunk) (c : Clock)
    (hw : ∀ k ∈ cs, k.WellFormed) (hn : ∀ k ∈ cs, k.NoLookAlike) (buf : Bytes)
    (hbuf : buf = (pre ++ streamWords cs).flatMap bytesOf) :
    ∃ bs1, locate x.mode buf (scan (streamWords cs) (8 * pre.length)) c = .ok (bs1, clockAfter x.mode c cs) ∧
      (oneAll ⟨x.mode, buf, x.params, x.solve⟩ (bs1.map fun b => ⟨b, []⟩)).bind (fun es => .ok (outputOf es)) =
        evAll x (perChunk x.mode c cs) := by
  induction cs generalizing pre c with
  | nil => exact ⟨[], rfl, rfl⟩
  | cons k ks ih =>
    have e1 : pre ++ k.header :: (k.packets ++ streamWords ks) = (pre ++ k.header :: k.packets) ++ streamWords ks := by
      simp
    have e2 : 8 * pre.length + 8 + 8 * k.packets.length = 8 * (pre ++ k.header :: k.packets).length := by
      simp only [List.length_append, List.length_cons]; omega
    obtain ⟨bs1, i1, i2⟩ := ih (pre ++ k.header :: k.packets)
      (runPackets x.mode true (headerChipId k.header) k.packets c).1
      (fun d hd => hw d (by simp [hd])) (fun d hd => hn d (by simp [hd])) (by rw [hbuf, streamWords_cons, e1])
    have hpk : batchPackets buf (8 * pre.length) k.packets.length = k.packets := by
      rw [hbuf, streamWords_cons]
      exact batchPackets_at pre k.packets (streamWords ks) k.header
    have hlen : buf.length % 8 = 0 := by rw [hbuf, length_flatMap_bytesOf]; omega
    have hp : ¬ reachesPartial buf (8 * pre.length) k.packets.length := by
      unfold reachesPartial; omega
    rw [streamWords_cons, scan_chunk _ _ _ (hw k (by simp)), scan_none _ _ (hn k (by simp)), List.nil_append, e2]
    refine ⟨{ chunkBatch (8 * pre.length) k with clock := storedClock x.mode (chunkBatch (8 * pre.length) k) c } :: bs1,
      ?_, ?_⟩
    · simp only [locate, updateTimestamp_eq]
      have : (chunkBatch (8 * pre.length) k).index = 8 * pre.length ∧
          (chunkBatch (8 * pre.length) k).numPackets = k.packets.length ∧
          (chunkBatch (8 * pre.length) k).chip = headerChipId k.header := ⟨rfl, rfl, rfl⟩
      rw [this.1, this.2.1, this.2.2, if_neg hp, hpk]
      simp only [bind, Res.bind]
      rw [i1]
      rfl
    · obtain ⟨B, hB⟩ : ∃ B, B = { chunkBatch (8 * pre.length) k with
          clock := storedClock x.mode (chunkBatch (8 * pre.length) k) c } := ⟨_, rfl⟩
      have f1 : B.index = 8 * pre.length ∧ B.numPackets = k.packets.length ∧ B.chip = headerChipId k.header ∧
          B.hits = [] ∧ B.clock = storedClock x.mode (chunkBatch (8 * pre.length) k) c := by
        rw [hB]; exact ⟨rfl, rfl, rfl, rfl, rfl⟩
      rw [← hB]
      have h1 := one_eq x buf B (by rw [f1.1, f1.2.1]; exact hp) f1.2.2.2.1
      rw [f1.1, f1.2.1, f1.2.2.1, f1.2.2.2.2, hpk, run_stored] at h1
      simp only [List.map_cons, oneAll, perChunk, evAll, bind]
      rw [← i2]
      revert h1
      generalize ProcCtx.one _ _ = A
      generalize eventsOf x _ = B
      generalize oneAll _ _ = C
      intro h1
      cases A <;> cases B <;> simp [Res.bind] at h1
      · cases C <;> simp [Res.bind, outputOf, h1]
      · subst h1; rfl
      · subst h1; rfl

/-- A chunk of words before the first header, then complete batches. -/
theorem chunk_stream_pre (x : CliCtx) (pre : List U64) (cs : List Chunk) (c : Clock) (hpre : ∀ w ∈ pre, ¬ StartsTPX w)
    (hw : ∀ k ∈ cs, k.WellFormed) (hn : ∀ k ∈ cs, k.NoLookAlike) :
    chunkOutput (chunkEvents x ((pre ++ streamWords cs).flatMap bytesOf) c) =
      (evAll x (perChunk x.mode c cs)).bind fun v => .ok (v, clockAfter x.mode c cs) := by
  obtain ⟨bs1, h1, h2⟩ := chunk_core x pre cs c hw hn _ rfl
  unfold chunkOutput chunkEvents
  rw [findTPX3H_eq, wordsOf_flatMap, scan_append, scan_none pre _ hpre, List.nil_append, Nat.zero_add]
  simp only [bind, Res.bind, h1]
  rw [← h2]
  generalize oneAll _ _ = C
  cases C <;> rfl

theorem chunk_stream (x : CliCtx) (cs : List Chunk) (c : Clock) (hw : ∀ k ∈ cs, k.WellFormed)
    (hn : ∀ k ∈ cs, k.NoLookAlike) :
    chunkOutput (chunkEvents x (streamBytes cs) c) =
      (evAll x (perChunk x.mode c cs)).bind fun v => .ok (v, clockAfter x.mode c cs) :=
  chunk_stream_pre x [] cs c (by simp) hw hn

theorem evAll_no_throw (x : CliCtx) (hs : List (List Hit)) (e : String) : evAll x hs ≠ .throws e := by
  induction hs with
  | nil => simp [evAll]
  | cons h hs ih =>
    simp only [evAll, bind, Res.bind]
    cases hh : eventsOf x h with
    | ok es =>
      simp only
      cases h2 : evAll x hs with
      | ok r => simp
      | throws e' => simp only; rw [h2] at ih; exact ih
      | ub u => simp
    | throws e' => exact absurd hh (eventsOf_no_throw x h e')
    | ub u => simp

/-- Result of a run, as seen in the output. -/
def runOutput (r : Res (Option (List EventBatch × Clock))) : Res (Option (List (List Hit × List Neutron) × Clock)) :=
  r.bind fun o => .ok (o.map fun e => (outputOf e.1, e.2))

theorem streamBytes_take_length (cs : List Chunk) (k : Nat) :
    (streamBytes (cs.take k)).length + (streamBytes (cs.drop k)).length = (streamBytes cs).length := by
  rw [← List.length_append, ← streamBytes_append, List.take_append_drop]

theorem streamBytes_nil_iff (cs : List Chunk) : (streamBytes cs).length = 0 ↔ cs = [] := by
  cases cs with
  | nil => simp [streamBytes, streamWords]
  | cons c cs =>
    rw [streamBytes_length, streamWords_cons]
    simp

theorem drop_streamBytes (cs : List Chunk) (k : Nat) :
    (streamBytes cs).drop (streamBytes (cs.take k)).length = streamBytes (cs.drop k) := by
  conv_lhs => rw [← List.take_append_drop k cs, streamBytes_append]
  rw [List.take_append_drop, List.drop_left]

theorem cliLoop_stream (x : CliCtx) (n : Nat) (hn0 : 0 < n) (cs : List Chunk) (hw : ∀ k ∈ cs, k.WellFormed)
    (hn : ∀ k ∈ cs, k.NoLookAlike)
    (hcut : ∀ j, j * n < (streamBytes cs).length → ∃ k, j * n = (streamBytes (cs.take k)).length)
    (fuel pos k : Nat) (c : Clock) (out : List EventBatch) (hpos : pos = (streamBytes (cs.take k)).length)
    (hj : pos < (streamBytes cs).length → ∃ j, pos = j * n) (hfuel : (streamBytes cs).length - pos < fuel) :
    runOutput (cliLoop x n fuel ⟨streamBytes cs, pos⟩ c out) =
      (evAll x (perChunk x.mode c (cs.drop k))).bind fun v =>
        .ok (some (outputOf out ++ v, clockAfter x.mode c (cs.drop k))) := by
  induction fuel generalizing pos k c out with
  | zero => omega
  | succ fuel ih =>
    have hsum := streamBytes_take_length cs k
    rw [cliLoop]
    by_cases hend : (streamBytes cs).length ≤ pos
    · have hd : cs.drop k = [] := by rw [← streamBytes_nil_iff]; omega
      rw [if_pos (by simpa [Reader.isEOF] using hend), hd]
      simp [runOutput, evAll, perChunk, clockAfter, Res.bind]
    · rw [if_neg (by simpa [Reader.isEOF] using hend)]
      obtain ⟨r1, r2, r3⟩ := readChunk_spec ⟨streamBytes cs, pos⟩ n (by simp only; omega)
      simp only at r1 r2 r3
      have hr : (Reader.readChunk ⟨streamBytes cs, pos⟩ n).2 = ⟨streamBytes cs, min (pos + n) (streamBytes cs).length⟩ := by
        rcases hh : (Reader.readChunk ⟨streamBytes cs, pos⟩ n).2 with ⟨f, q⟩
        rw [hh] at r2 r3
        simp only at r2 r3
        rw [r2, r3]
      have hne : (Reader.readChunk ⟨streamBytes cs, pos⟩ n).1 ≠ [] := by
        rw [r1]
        intro h0
        have := congrArg List.length h0
        rw [List.length_take, List.length_drop, List.length_nil] at this
        omega
      simp only
      rw [if_neg hne, hr, r1, hpos, drop_streamBytes, ← hpos]
      have hstep : ∃ k', k ≤ k' ∧ (streamBytes (cs.drop k)).take n = streamBytes ((cs.drop k).take (k' - k)) ∧
          min (pos + n) (streamBytes cs).length = (streamBytes (cs.take k')).length ∧
          (min (pos + n) (streamBytes cs).length < (streamBytes cs).length →
            ∃ j, min (pos + n) (streamBytes cs).length = j * n) := by
        by_cases hlast : (streamBytes cs).length ≤ pos + n
        · refine ⟨max k cs.length, le_max_left _ _, ?_, ?_, by omega⟩
          · rw [List.take_of_length_le (by omega), List.take_of_length_le]
            rw [List.length_drop]; omega
          · rw [List.take_of_length_le (le_max_right _ _)]; omega
        · obtain ⟨j, hj⟩ := hj (by omega)
          have hj1 : (j + 1) * n = pos + n := by rw [hj]; ring
          obtain ⟨k', hk'⟩ := hcut (j + 1) (by omega)
          have hkk : k ≤ k' := by
            by_contra hlt
            have e : cs.take k = cs.take k' ++ (cs.drop k').take (k - k') := by
              rw [← List.take_add]; congr 1; omega
            rw [e, streamBytes_append, List.length_append] at hpos
            omega
          have e : cs.take k' = cs.take k ++ (cs.drop k).take (k' - k) := by
            rw [← List.take_add]; congr 1; omega
          have hmid : (streamBytes ((cs.drop k).take (k' - k))).length = n := by
            rw [e, streamBytes_append, List.length_append] at hk'
            omega
          refine ⟨k', hkk, ?_, by omega, fun _ => ⟨j + 1, by omega⟩⟩
          conv_lhs => rw [← List.take_append_drop (k' - k) (cs.drop k), streamBytes_append, ← hmid]
          rw [List.take_left]
      obtain ⟨k', hkk, s1, s2, s3⟩ := hstep
      rw [s1]
      have hsplit : cs.drop k = (cs.drop k).take (k' - k) ++ cs.drop k' := by
        conv_lhs => rw [← List.take_append_drop (k' - k) (cs.drop k)]
        rw [List.drop_drop]
        congr 2
        omega
      have hch := chunk_stream x ((cs.drop k).take (k' - k)) c
        (fun d hd => hw d (List.mem_of_mem_drop (List.mem_of_mem_take hd)))
        (fun d hd => hn d (List.mem_of_mem_drop (List.mem_of_mem_take hd)))
      rw [hsplit, (perChunk_append _ _ _ _).1, (perChunk_append _ _ _ _).2, evAll_append, ← hsplit]
      cases hce : chunkEvents x (streamBytes ((cs.drop k).take (k' - k))) c with
      | ok e =>
        rw [hce] at hch
        simp only
        cases hev : evAll x (perChunk x.mode c ((cs.drop k).take (k' - k))) with
        | ok v =>
          rw [hev] at hch
          simp only [chunkOutput, Res.bind, Res.ok.injEq, Prod.mk.injEq] at hch
          have hf : (streamBytes cs).length - min (pos + n) (streamBytes cs).length < fuel := by
            clear s3 hj hcut ih; omega
          rw [ih _ k' e.2 (out ++ e.1) s2 s3 hf, hch.2]
          simp only [Res.bind]
          have ho : outputOf (out ++ e.1) = outputOf out ++ v := by rw [← hch.1]; simp [outputOf]
          rw [ho]
          cases evAll x (perChunk x.mode (clockAfter x.mode c ((cs.drop k).take (k' - k))) (cs.drop k')) <;>
            simp [List.append_assoc]
        | throws u => exact absurd hev (evAll_no_throw _ _ _)
        | ub u => rw [hev] at hch; simp [chunkOutput, Res.bind] at hch
      | throws u =>
        rw [hce] at hch
        cases hev : evAll x (perChunk x.mode c ((cs.drop k).take (k' - k))) with
        | ok v => rw [hev] at hch; simp [chunkOutput, Res.bind] at hch
        | throws u => exact absurd hev (evAll_no_throw _ _ _)
        | ub u => rw [hev] at hch; simp [chunkOutput, Res.bind] at hch
      | ub u =>
        rw [hce] at hch
        cases hev : evAll x (perChunk x.mode c ((cs.drop k).take (k' - k))) with
        | ok v => rw [hev] at hch; simp [chunkOutput, Res.bind] at hch
        | throws u => exact absurd hev (evAll_no_throw _ _ _)
        | ub u' =>
          rw [hev] at hch
          simp only [chunkOutput, Res.bind, Res.ub.injEq] at hch
          subst hch
          rfl

/-- C22 for cuts between batches: a file made of complete batches, in whose data no packet looks like a header, gives
the same hits and events, batch by batch, and the same final timestamps, for every chunk size all of whose cuts fall
between batches, as in one piece; in particular for every chunk size not smaller than the file.
Missing: cuts inside a batch, for which the claim is false (`c22_false`). -/
theorem c22_boundaries_partial (x : CliCtx) (n : Nat) (hn0 : 0 < n) (cs : List Chunk) (hcs : cs ≠ [])
    (hw : ∀ k ∈ cs, k.WellFormed) (hn : ∀ k ∈ cs, k.NoLookAlike)
    (hcut : ∀ j, j * n < (streamBytes cs).length → ∃ k, j * n = (streamBytes (cs.take k)).length)
    (fuel : Nat) (hfuel : (streamBytes cs).length < fuel) :
    runOutput (cliRun x n fuel (streamBytes cs)) =
      (chunkOutput (chunkEvents x (streamBytes cs) Clock.zero)).bind fun r => .ok (some r) := by
  have hne : (streamBytes cs).length ≠ 0 := fun h => hcs ((streamBytes_nil_iff cs).mp h)
  unfold cliRun Reader.open
  rw [if_neg hne]
  simp only
  rw [cliLoop_stream x n hn0 cs hw hn hcut fuel 0 0 Clock.zero [] (by simp [streamBytes, streamWords])
    (fun _ => ⟨0, by simp⟩) (by omega), chunk_stream x cs Clock.zero hw hn]
  simp only [List.drop_zero]
  cases evAll x (perChunk x.mode Clock.zero cs) <;> simp [Res.bind, outputOf]

/-- Two batches of two and one packets, cut after the first (24 bytes): the cut falls between batches. -/
example : ∃ cs : List Chunk, cs.length = 2 ∧ (∀ k ∈ cs, k.WellFormed) ∧
    ∀ j, j * 24 < (streamBytes cs).length → ∃ k, j * 24 = (streamBytes (cs.take k)).length := by
  refine ⟨[⟨0x0010000033585054#64, [0xB000000000000000#64, 0x6F00000000005000#64]⟩, ⟨0x0008000333585054#64, [0#64]⟩],
    rfl, by decide, fun j hj => ⟨j, ?_⟩⟩
  have h40 : (streamBytes [⟨0x0010000033585054#64, [0xB000000000000000#64, 0x6F00000000005000#64]⟩,
      ⟨0x0008000333585054#64, [0#64]⟩]).length = 40 := by decide
  rw [h40] at hj
  have : j = 0 ∨ j = 1 := by omega
  rcases this with rfl | rfl <;> decide

theorem eventsOf_returns (x : CliCtx) (hs : List Hit) (hh : ∀ h ∈ hs, h.spidertime.toNat < 2 ^ 48 ∧ h.tof ≠ none) :
    ∃ es, eventsOf x hs = .ok es := by
  obtain ⟨a, ha⟩ := c24_fit_returns (AbsObj.new x.params) hs fun h hm => by have := (hh h hm).1; omega
  cases he : eventsOf x hs with
  | ok es => exact ⟨es, rfl⟩
  | throws e => exact absurd he (eventsOf_no_throw x hs e)
  | ub u =>
    unfold eventsOf at he
    rw [ha] at he
    simp only [bind, Res.bind] at he
    rcases getEvents_cases (solve := x.solve) (fit_consistent ha) hs with ⟨-, m, h3⟩ | ⟨-, -, -, -, m, h3⟩ | ⟨-, -, h3⟩ |
      ⟨-, -, -, h3⟩
    · rw [h3] at he; simp at he
    · rw [h3] at he; simp at he
    · rw [h3] at he; simp at he
    · rcases h3 with ⟨r, h3⟩ | ⟨-, g, hg, hn⟩
      · rw [h3] at he; simp at he
      · exact absurd hn (hh g hg).2

theorem eventsOf_nil (x : CliCtx) : eventsOf x [] = .ok [] := by
  obtain ⟨a, ha⟩ := c24_fit_returns (AbsObj.new x.params) [] (by simp)
  have hl := (c24_labels _ a _ ha).1
  unfold eventsOf
  rw [ha]
  simp only [bind, Res.bind, AbsObj.getEvents]
  rw [if_neg (by simpa using hl), if_pos (List.length_eq_zero_iff.mp hl)]

/-- A chunk without a header gives nothing. -/
theorem chunk_no_header (x : CliCtx) (ws : List U64) (c : Clock) (h : ∀ w ∈ ws, ¬ StartsTPX w) :
    chunkOutput (chunkEvents x (ws.flatMap bytesOf) c) = .ok ([], c) := by
  have := chunk_stream_pre x ws [] c h (by simp) (by simp)
  simpa [streamWords, perChunk, evAll, clockAfter, Res.bind] using this

/-- A chunk whose only header is its last word gives one batch without hits. -/
theorem chunk_header_last (x : CliCtx) (ws : List U64) (hd : U64) (c : Clock) (h : ∀ w ∈ ws, ¬ StartsTPX w)
    (hh : StartsTPX hd) : chunkOutput (chunkEvents x ((ws ++ [hd]).flatMap bytesOf) c) = .ok ([([], [])], c) := by
  have hlen : ((ws ++ [hd]).flatMap bytesOf).length = 8 * ws.length + 8 := by
    rw [length_flatMap_bytesOf]; simp; omega
  have hp : ¬ reachesPartial ((ws ++ [hd]).flatMap bytesOf) (8 * ws.length) (headerPackets hd) := by
    unfold reachesPartial; rw [hlen]; omega
  have hb : batchPackets ((ws ++ [hd]).flatMap bytesOf) (8 * ws.length) (headerPackets hd) = [] := by
    unfold batchPackets
    rw [List.drop_of_length_le (by omega), wordsOf_short _ (by simp), List.take_nil]
  unfold chunkOutput chunkEvents
  rw [findTPX3H_eq, wordsOf_flatMap, scan_append, scan_none ws _ h, List.nil_append, Nat.zero_add, scan,
    if_pos ((isHeader_iff_starts _).mpr hh), scan]
  obtain ⟨B, hB⟩ : ∃ B, B = Batch.new (8 * ws.length) (headerPackets hd) (headerChip hd) := ⟨_, rfl⟩
  have f : B.index = 8 * ws.length ∧ B.numPackets = headerPackets hd ∧ B.hits = [] := by rw [hB]; exact ⟨rfl, rfl, rfl⟩
  rw [← hB]
  have hl : locate x.mode ((ws ++ [hd]).flatMap bytesOf) [B] c = .ok ([{ B with clock := storedClock x.mode B c }], c) := by
    simp only [locate, updateTimestamp_eq]
    rw [f.1, f.2.1, if_neg hp, hb]
    rfl
  have h1 := one_eq x ((ws ++ [hd]).flatMap bytesOf) { B with clock := storedClock x.mode B c }
    (by simp only; rw [f.1, f.2.1]; exact hp) f.2.2
  simp only at h1
  rw [f.1, f.2.1, hb] at h1
  simp only [runPackets, eventsOf_nil] at h1
  simp only [bind, Res.bind, hl, List.map_cons, List.map_nil, oneAll]
  rw [← f.1, ← f.2.1] at h1
  revert h1
  generalize ProcCtx.one _ _ = A
  intro h1
  cases A <;> simp [Res.bind] at h1
  simp [outputOf, h1]

theorem not_starts_zeros (k : Nat) : ∀ w ∈ List.replicate k 0#64, ¬ StartsTPX w := by
  intro w hw
  rw [List.eq_of_mem_replicate hw]
  decide

/-- One round of the loop. -/
theorem cliLoop_round (x : CliCtx) (n fuel : Nat) (r : Reader) (c : Clock) (out : List EventBatch) (e : List EventBatch × Clock)
    (h1 : r.isEOF = false) (h2 : (r.readChunk n).1 ≠ []) (h3 : chunkEvents x (r.readChunk n).1 c = .ok e) :
    cliLoop x n (fuel + 1) r c out = cliLoop x n fuel (r.readChunk n).2 e.2 (out ++ e.1) := by
  rw [cliLoop, h1]
  simp only
  rw [if_neg (by simp), if_neg h2, h3]

theorem cliLoop_end (x : CliCtx) (n fuel : Nat) (r : Reader) (c : Clock) (out : List EventBatch) (h1 : r.isEOF = true) :
    cliLoop x n (fuel + 1) r c out = .ok (some (out, c)) := by
  rw [cliLoop, h1]; rfl

theorem chunkOutput_ok {r : Res (List EventBatch × Clock)} {v : List (List Hit × List Neutron)} {c : Clock}
    (h : chunkOutput r = .ok (v, c)) : ∃ e, r = .ok (e, c) ∧ outputOf e = v := by
  cases r with
  | ok e =>
    simp only [chunkOutput, Res.bind, Res.ok.injEq, Prod.mk.injEq] at h
    exact ⟨e.1, by rw [← h.2], h.1⟩
  | throws _ => simp [chunkOutput, Res.bind] at h
  | ub _ => simp [chunkOutput, Res.bind] at h

/-- C22 is false as stated: for every chunk size (a multiple of 8, as every size the program accepts is) there is a file
with one hit which is lost when the file is read in chunks of that size, because the cut separates the packets
from their header. -/
theorem c22_false (x : CliCtx) (hx : x.mode = .tdc) (n : Nat) (h8 : 8 ∣ n) (h16 : 16 ≤ n) :
    ∃ (file : Bytes) (h : Hit) (es : List Neutron) (c c' : Clock),
      (∀ N fuel, file.length ≤ N → 2 ≤ fuel → runOutput (cliRun x N fuel file) = .ok (some ([([h], es)], c))) ∧
      (∀ fuel, 3 ≤ fuel → runOutput (cliRun x n fuel file) = .ok (some ([([], [])], c'))) := by
  obtain ⟨k, rfl⟩ := h8
  have hk : 2 ≤ k := by omega
  obtain ⟨pre, hpre⟩ : ∃ pre, pre = List.replicate (k - 1) 0#64 := ⟨_, rfl⟩
  have hns : ∀ w ∈ pre, ¬ StartsTPX w := by rw [hpre]; exact not_starts_zeros _
  have hplen : pre.length = k - 1 := by rw [hpre, List.length_replicate]
  obtain ⟨H, hH⟩ : ∃ H : Chunk, H = ⟨0x0010000033585054#64, [0x6F00000000005000#64, 0xB123400000000009#64]⟩ := ⟨_, rfl⟩
  have hword : streamWords [H] = [H.header] ++ H.packets := by simp [streamWords]
  have hHw : H.WellFormed ∧ H.NoLookAlike ∧ H.packets.length = 2 := by
    rw [hH]
    refine ⟨by decide, ?_, rfl⟩
    intro w hw
    simp only [List.mem_cons, List.not_mem_nil, or_false] at hw
    rcases hw with rfl | rfl <;> decide
  obtain ⟨file, hfile⟩ : ∃ file, file = (pre ++ streamWords [H]).flatMap bytesOf := ⟨_, rfl⟩
  have hflen : file.length = 8 * k + 16 := by
    rw [hfile, length_flatMap_bytesOf, hword]
    simp [hplen, hHw.2.2]; omega
  have hfile2 : file = (pre ++ [H.header]).flatMap bytesOf ++ H.packets.flatMap bytesOf := by
    rw [hfile, hword, ← List.append_assoc, List.flatMap_append]
  have hlen1 : ((pre ++ [H.header]).flatMap bytesOf).length = 8 * k := by
    rw [length_flatMap_bytesOf]; simp [hplen]; omega
  obtain ⟨h, hh, hh2⟩ : ∃ h, perChunk x.mode Clock.zero [H] = [[h]] ∧ h.spidertime.toNat < 2 ^ 48 ∧ h.tof ≠ none := by
    rw [hx, hH]
    exact ⟨_, rfl, by decide, by decide⟩
  obtain ⟨es, hes⟩ := eventsOf_returns x [h] (by simpa using hh2)
  have hwhole := chunk_stream_pre x pre [H] Clock.zero hns (by simpa using hHw.1) (by simpa using hHw.2.1)
  rw [hh, ← hfile] at hwhole
  simp only [evAll, hes, bind, Res.bind] at hwhole
  obtain ⟨e, he, heo⟩ := chunkOutput_ok hwhole
  obtain ⟨e1, he1, heo1⟩ := chunkOutput_ok (chunk_header_last x pre H.header Clock.zero hns hHw.1.1)
  obtain ⟨e2, he2, heo2⟩ := chunkOutput_ok (chunk_no_header x H.packets Clock.zero hHw.2.1)
  have hopen : Reader.open file = .ok ⟨file, 0⟩ := by
    unfold Reader.open; rw [if_neg (by omega)]
  refine ⟨file, h, es, clockAfter x.mode Clock.zero [H], Clock.zero, ?_, ?_⟩
  · intro N fuel hN hfuel
    obtain ⟨f, rfl⟩ : ∃ f, fuel = f + 2 := ⟨fuel - 2, by omega⟩
    unfold cliRun
    rw [hopen]
    simp only
    obtain ⟨r1, r2, r3⟩ := readChunk_spec ⟨file, 0⟩ N (Nat.zero_le _)
    simp only [List.drop_zero, Nat.zero_add] at r1 r2 r3
    rw [List.take_of_length_le hN] at r1
    rw [cliLoop_round x N (f + 1) ⟨file, 0⟩ Clock.zero [] (e, clockAfter x.mode Clock.zero [H])
      (by unfold Reader.isEOF; rw [decide_eq_false_iff_not]; simp only; omega) (by rw [r1]; intro h0; rw [h0] at hflen; simp at hflen) (by rw [r1]; exact he),
      cliLoop_end _ _ _ _ _ _ (by unfold Reader.isEOF; rw [r2, r3]; simp; omega)]
    simp [runOutput, Res.bind, heo]
  · intro fuel hfuel
    obtain ⟨f, rfl⟩ : ∃ f, fuel = f + 3 := ⟨fuel - 3, by omega⟩
    unfold cliRun
    rw [hopen]
    simp only
    obtain ⟨r1, r2, r3⟩ := readChunk_spec ⟨file, 0⟩ (8 * k) (Nat.zero_le _)
    simp only [List.drop_zero, Nat.zero_add] at r1 r2 r3
    have t1 : file.take (8 * k) = (pre ++ [H.header]).flatMap bytesOf := by
      rw [hfile2, ← hlen1, List.take_left]
    have t2 : file.drop (8 * k) = H.packets.flatMap bytesOf := by
      rw [hfile2, ← hlen1, List.drop_left]
    rw [t1] at r1
    have hr : (Reader.readChunk ⟨file, 0⟩ (8 * k)).2 = ⟨file, 8 * k⟩ := by
      rcases hq : (Reader.readChunk ⟨file, 0⟩ (8 * k)).2 with ⟨g, q⟩
      rw [hq] at r2 r3
      simp only at r2 r3
      rw [r2, r3, Nat.min_eq_left (by omega)]
    rw [cliLoop_round x (8 * k) (f + 2) ⟨file, 0⟩ Clock.zero [] (e1, Clock.zero) (by unfold Reader.isEOF; rw [decide_eq_false_iff_not]; simp only; omega)
      (by rw [r1]; intro h0; rw [h0, List.length_nil] at hlen1; omega) (by rw [r1]; exact he1), hr]
    obtain ⟨q1, q2, q3⟩ := readChunk_spec ⟨file, 8 * k⟩ (8 * k) (by simp only; omega)
    simp only at q1 q2 q3
    have hplen2 : (H.packets.flatMap bytesOf).length = 16 := by rw [length_flatMap_bytesOf, hHw.2.2]
    rw [t2, List.take_of_length_le (by omega)] at q1
    rw [cliLoop_round x (8 * k) (f + 1) ⟨file, 8 * k⟩ Clock.zero _ (e2, Clock.zero)
      (by unfold Reader.isEOF; rw [decide_eq_false_iff_not]; simp only; omega) (by rw [q1]; intro h0; rw [h0] at hplen2; simp at hplen2) (by rw [q1]; exact he2),
      cliLoop_end _ _ _ _ _ _ (by unfold Reader.isEOF; rw [q2, q3]; simp; omega)]
    have : outputOf ([] ++ e1 ++ e2) = outputOf e1 ++ outputOf e2 := by simp [outputOf]
    simp only [runOutput, Res.bind, Option.map_some]
    rw [this, heo1, heo2]
    rfl

/-- C22, about the sizes the program accepts: megabytes to bytes wraps around, so an argument of 2^44 (or 0) means size
0, with which the loop ends at once: nothing of the file is processed. -/
theorem c22_zero_size (x : CliCtx) (file : Bytes) (hf : file ≠ []) (fuel : Nat) (hfuel : 1 ≤ fuel) (k : Nat) :
    cliRun x (chunkSizeOf (2 ^ 44 * k)) fuel file = .ok (some ([], Clock.zero)) := by
  obtain ⟨f, rfl⟩ : ∃ f, fuel = f + 1 := ⟨fuel - 1, by omega⟩
  have h0 : chunkSizeOf (2 ^ 44 * k) = 0 := by
    unfold chunkSizeOf
    simp only [BitVec.toNat_mul, BitVec.toNat_ofNat, Nat.reducePow]
    omega
  have hlen : file.length ≠ 0 := fun h => hf (List.length_eq_zero_iff.mp h)
  unfold cliRun Reader.open
  rw [if_neg hlen, h0]
  simp only
  obtain ⟨r1, -, -⟩ := readChunk_spec ⟨file, 0⟩ 0 (Nat.zero_le _)
  rw [cliLoop]
  by_cases h1 : Reader.isEOF ⟨file, 0⟩ = true
  · rw [if_pos h1]
  · rw [if_neg h1]
    simp only
    rw [List.take_zero] at r1
    rw [if_pos r1]

/-- All sizes the program accepts are multiples of 2^20, so `c22_false` applies to each of them but 0. -/
theorem c22_accepted_sizes (mb : Nat) : 2 ^ 20 ∣ chunkSizeOf mb ∧ (mb < 2 ^ 44 → chunkSizeOf mb = mb * 2 ^ 20) := by
  unfold chunkSizeOf
  simp only [BitVec.toNat_mul, BitVec.toNat_ofNat, Nat.reducePow]
  constructor
  · omega
  · intro h
    omega

/-- No exception is thrown while a chunk is processed, whatever the bytes. -/
theorem chunkEvents_no_throw (x : CliCtx) (buf : Bytes) (c : Clock) (e : String) : chunkEvents x buf c ≠ .throws e := by
  have hloc : ∀ (bs : List Batch) (c : Clock), locate x.mode buf bs c ≠ .throws e := by
    intro bs
    induction bs with
    | nil => intro c; simp [locate]
    | cons b bs ih =>
      intro c
      simp only [locate, updateTimestamp_eq, bind]
      split_ifs
      · simp [Res.bind]
      · simp only [Res.bind]
        have := ih (runPackets x.mode true b.chip (batchPackets buf b.index b.numPackets) c).1
        cases hl : locate x.mode buf bs (runPackets x.mode true b.chip (batchPackets buf b.index b.numPackets) c).1 with
        | ok r => simp
        | throws e' => rw [hl] at this; simpa using this
        | ub u => simp
  have hone : ∀ bs : List EventBatch, oneAll ⟨x.mode, buf, x.params, x.solve⟩ bs ≠ .throws e := by
    intro bs
    induction bs with
    | nil => simp [oneAll]
    | cons b bs ih =>
      simp only [oneAll, bind]
      have h1 : ProcCtx.one ⟨x.mode, buf, x.params, x.solve⟩ b ≠ .throws e := by
        unfold ProcCtx.one
        simp only [extractHits_eq, bind]
        split_ifs
        · simp [Res.bind]
        · simp only [Res.bind]
          have := eventsOf_no_throw x
            (b.batch.hits ++ (runPackets x.mode true b.batch.chip (batchPackets buf b.batch.index b.batch.numPackets)
              b.batch.clock).2) e
          unfold eventsOf at this
          simp only [bind, Res.bind] at this
          revert this
          cases AbsObj.fit (AbsObj.new x.params) (b.batch.hits ++
            (runPackets x.mode true b.batch.chip (batchPackets buf b.batch.index b.batch.numPackets) b.batch.clock).2) with
          | ok a =>
            simp only
            cases AbsObj.getEvents x.solve a (b.batch.hits ++
              (runPackets x.mode true b.batch.chip (batchPackets buf b.batch.index b.batch.numPackets) b.batch.clock).2) <;>
              simp
          | throws e' => simp
          | ub u => simp
      cases h2 : ProcCtx.one ⟨x.mode, buf, x.params, x.solve⟩ b with
      | ok r =>
        simp only [Res.bind]
        cases h3 : oneAll ⟨x.mode, buf, x.params, x.solve⟩ bs with
        | ok r => simp
        | throws e' => rw [h3] at ih; simpa using ih
        | ub u => simp
      | throws e' => rw [h2] at h1; simpa [Res.bind] using h1
      | ub u => simp [Res.bind]
  unfold chunkEvents
  rw [findTPX3H_eq]
  simp only [bind, Res.bind]
  cases hl : locate x.mode buf (scan (wordsOf buf) 0) c with
  | ok r =>
    simp only
    cases ho : oneAll ⟨x.mode, buf, x.params, x.solve⟩ (r.1.map fun b => ⟨b, []⟩) with
    | ok r => simp
    | throws e' =>
      have := hone (r.1.map fun b => ⟨b, []⟩)
      rw [ho] at this; simpa using this
    | ub u => simp
  | throws e' =>
    have := hloc (scan (wordsOf buf) 0) c
    rw [hl] at this; simpa using this
  | ub u => simp

end Verif.Props
