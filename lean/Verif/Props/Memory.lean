import Verif.Spec.Memory
import Verif.Props.AnyRun
import Verif.Props.Damage

/-!
# C125: running out of memory
-/

namespace Verif.Props

open Verif Verif.Spec

theorem allHits_append (a b : List (List Hit)) (f : H5) : appendAllHits (a ++ b) f = (appendAllHits a f).bind (appendAllHits b) := by
  induction a generalizing f with
  | nil => rfl
  | cons c a ih =>
    rw [List.cons_append, appendAllHits, appendAllHits]
    cases appendHits none (fun _ => none) c f with
    | ub u => rfl
    | throws m => rfl
    | ok g => exact ih g

theorem allNeutrons_append (a b : List (List Neutron)) (f : H5) :
    appendAllNeutrons (a ++ b) f = (appendAllNeutrons a f).bind (appendAllNeutrons b) := by
  induction a generalizing f with
  | nil => rfl
  | cons c a ih =>
    rw [List.cons_append, appendAllNeutrons, appendAllNeutrons]
    cases appendNeutrons none (fun _ => none) c f with
    | ub u => rfl
    | throws m => rfl
    | ok g => exact ih g.1

theorem allImages_append (sr : F64) (es : List F64) (m : String) (a b : List EventBatch) (im : Stack) :
    updateAll sr es m im (a ++ b) = (updateAll sr es m im a).bind fun im' => updateAll sr es m im' b := by
  induction a generalizing im with
  | nil => rfl
  | cons c a ih =>
    rw [List.cons_append, updateAll, updateAll]
    cases updateImages sr es m im c with
    | ub u => rfl
    | throws m => rfl
    | ok g => exact ih g

/-- What outputs `w'` have more than `w`: hits of `hb`, neutrons of `eb`, images and totals of `fb`. -/
def MemWritten (o : ProgramOptions) (sr : F64) (es : List F64) (w w' : Outputs) (hb eb fb : List EventBatch) : Prop :=
  (o.outHits ≠ [] → appendAllHits (hb.map fun b => b.batch.hits) w.hits = .ok w'.hits) ∧
  (o.outEvents ≠ [] → appendAllNeutrons (eb.map fun b => b.neutrons) w.events = .ok w'.events) ∧
  (o.needsImages = true → updateAll sr es (String.ofList o.tofMode) w.images fb = .ok w'.images) ∧
  w'.totalHits = w.totalHits + BitVec.ofNat 64 (fb.flatMap fun b => b.batch.hits).length ∧
  w'.totalNeutrons = w.totalNeutrons + BitVec.ofNat 64 (fb.flatMap fun b => b.neutrons).length

theorem memWritten_nil (o : ProgramOptions) (sr : F64) (es : List F64) (w : Outputs) : MemWritten o sr es w w [] [] [] := by
  refine ⟨fun _ => rfl, fun _ => rfl, fun _ => rfl, ?_, ?_⟩ <;> simp

theorem memWritten_trans {o : ProgramOptions} {sr : F64} {es : List F64} {w w' w'' : Outputs} {hb eb fb hb' eb' fb' : List EventBatch}
    (h : MemWritten o sr es w w' hb eb fb) (h' : MemWritten o sr es w' w'' hb' eb' fb') :
    MemWritten o sr es w w'' (hb ++ hb') (eb ++ eb') (fb ++ fb') := by
  obtain ⟨a1, a2, a3, a4, a5⟩ := h
  obtain ⟨b1, b2, b3, b4, b5⟩ := h'
  refine ⟨fun ho => ?_, fun ho => ?_, fun ho => ?_, ?_, ?_⟩
  · rw [List.map_append, allHits_append, a1 ho]
    exact b1 ho
  · rw [List.map_append, allNeutrons_append, a2 ho]
    exact b2 ho
  · rw [allImages_append, a3 ho]
    exact b3 ho
  · rw [b4, a4, List.flatMap_append, List.length_append, BitVec.ofNat_add, BitVec.add_assoc]
  · rw [b5, a5, List.flatMap_append, List.length_append, BitVec.ofNat_add, BitVec.add_assoc]

theorem memBatch_written (o : ProgramOptions) (sr : F64) (es : List F64) (st : MemStage) (b : EventBatch) (w w' : Outputs)
    (h : memBatch o st b w = .ok (w', .normal)) :
    MemWritten o sr es w w' (match st with | .hits => [] | _ => [b]) (match st with | .images => [b] | _ => []) [] := by
  cases st with
  | hits =>
    simp only [memBatch, Res.ok.injEq, Prod.mk.injEq, and_true] at h
    subst h
    exact memWritten_nil o sr es w
  | events =>
    simp only [memBatch] at h
    split at h
    · cases h
    · simp at h
    · rename_i g h1
      simp only [Res.ok.injEq, Prod.mk.injEq, and_true] at h
      subst h
      refine ⟨fun ho => ?_, fun _ => rfl, fun _ => rfl, by simp, by simp⟩
      rw [if_neg ho] at h1
      simp only [List.map_cons, List.map_nil, appendAllHits, h1]
      rfl
  | images =>
    simp only [memBatch] at h
    split at h
    · cases h
    · simp at h
    · rename_i g h1
      split at h
      · cases h
      · simp at h
      · simp at h
      · rename_i e h2
        simp only [Res.ok.injEq, Prod.mk.injEq, and_true] at h
        subst h
        refine ⟨fun ho => ?_, fun ho => ?_, fun _ => rfl, by simp, by simp⟩
        · rw [if_neg ho] at h1
          simp only [List.map_cons, List.map_nil, appendAllHits, h1]
          rfl
        · rw [if_neg ho] at h2
          simp only [List.map_cons, List.map_nil, appendAllNeutrons, h2]
          rfl

theorem memBatch_no_throw (o : ProgramOptions) (st : MemStage) (b : EventBatch) (w : Outputs) (e : String) :
    memBatch o st b w ≠ .throws e := by
  intro h
  unfold memBatch at h
  split at h
  · cases h
  · split at h <;> cases h
  · split at h
    · cases h
    · cases h
    · split at h <;> cases h

theorem outputBatches_written (o : ProgramOptions) (sr : F64) (es : List F64) (bs : List EventBatch) (w w' : Outputs)
    (h : outputBatches o sr es (fun _ => {}) 0 bs w = .ok (w', .normal)) : MemWritten o sr es w w' bs bs bs :=
  outputBatches_clean o sr es 0 bs w w' h

theorem memOutput_written (o : ProgramOptions) (sr : F64) (es : List F64) (f : MemFault) (bs : List EventBatch) (w w' : Outputs)
    (h : memOutput o sr es f bs w = .ok (w', .normal)) :
    MemWritten o sr es w w' (bs.take (hitsKept bs.length f)) (bs.take (eventsKept bs.length f)) (bs.take (fullyKept bs.length f)) := by
  cases f with
  | none => simpa [hitsKept, eventsKept, fullyKept] using outputBatches_written o sr es bs w w' h
  | read => simpa [hitsKept, eventsKept, fullyKept] using outputBatches_written o sr es bs w w' h
  | find => simpa [hitsKept, eventsKept, fullyKept] using outputBatches_written o sr es bs w w' h
  | process =>
    simp only [memOutput, Res.ok.injEq, Prod.mk.injEq, and_true] at h
    subst h
    exact memWritten_nil o sr es w
  | output i st =>
    simp only [memOutput] at h
    split at h
    · rename_i w1 h1
      have k1 := outputBatches_written o sr es _ _ _ h1
      split at h
      · rename_i b hb
        have k2 := memWritten_trans k1 (memBatch_written o sr es st b _ _ h)
        have hs : bs.take (i + 1) = bs.take i ++ [b] := by rw [List.take_add_one, hb]; rfl
        cases st with
        | hits => simpa [hitsKept, eventsKept, fullyKept] using k2
        | events => simpa [hitsKept, eventsKept, fullyKept, hs] using k2
        | images => simpa [hitsKept, eventsKept, fullyKept, hs] using k2
      · rename_i hb
        simp only [Res.ok.injEq, Prod.mk.injEq, and_true] at h
        subst h
        have hl : bs.length ≤ i := by simpa using hb
        have hs : bs.take (i + 1) = bs.take i := by rw [List.take_of_length_le (by omega), List.take_of_length_le hl]
        cases st with
        | hits => exact k1
        | events => simpa [hitsKept, eventsKept, fullyKept, hs] using k1
        | images => simpa [hitsKept, eventsKept, fullyKept, hs] using k1
    · rename_i r
      exact absurd h (r w')

theorem memOutput_no_throw (o : ProgramOptions) (sr : F64) (es : List F64) (f : MemFault) (bs : List EventBatch) (w : Outputs)
    (e : String) : memOutput o sr es f bs w ≠ .throws e := by
  intro h
  unfold memOutput at h
  split at h
  · cases h
  · split at h
    · split at h
      · exact memBatch_no_throw _ _ _ _ _ h
      · cases h
    · exact outputBatches_no_throw _ _ _ _ _ _ _ _ h
  · exact outputBatches_no_throw _ _ _ _ _ _ _ _ h

theorem passed_succ (mf : Nat → MemFault) (k r : Nat) :
    passed mf k (r + 1) = if mf k = .read then passed mf (k + 1) r else mf k :: passed mf (k + 1) r := by
  unfold passed
  rw [List.range'_succ, List.map_cons, List.filter_cons]
  by_cases h : mf k = .read
  · simp [h]
  · simp [h]

theorem clockAfter_times (m : Mode) (c : Clock) (hc : c.timer.toNat < 2 ^ 32) (cs : List Chunk) :
    (clockAfter m c cs).times = timesAfter m c.times cs ∧ (clockAfter m c cs).timer.toNat < 2 ^ 32 := by
  induction cs generalizing c with
  | nil => exact ⟨rfl, hc⟩
  | cons k ks ih =>
    cases m with
    | gdc =>
      obtain ⟨r1, r2, r3⟩ := runGdc_spec (headerChipId k.header) k.packets c hc
      simp only [clockAfter, timesAfter]
      rw [← r1]
      exact ih _ r2
    | tdc =>
      obtain ⟨r1, r3⟩ := runTdc_spec (headerChipId k.header) k.packets c
      have ht : (runPackets .tdc true (headerChipId k.header) k.packets c).1.timer.toNat < 2 ^ 32 := by
        have := congrArg Times.low r1
        have hl : ∀ ws t, (timesT t ws).low = t.low := by
          intro ws
          induction ws with
          | nil => intro t; rfl
          | cons w ws ih2 =>
            intro t
            rw [timesT_cons, ih2]
            unfold nextT
            split_ifs <;> rfl
        rw [hl] at this
        simp only [Clock.times] at this
        omega
      simp only [clockAfter, timesAfter]
      rw [← r1]
      exact ih _ ht

theorem timesAfter_good (m : Mode) (t : Times) (ht : GoodTimes t) (cs : List Chunk) : GoodTimes (timesAfter m t cs) := by
  induction cs generalizing t with
  | nil => exact ht
  | cons k ks ih =>
    cases m with
    | gdc => exact ih _ (timesG_good _ ht _)
    | tdc => exact ih _ (timesT_good _ ht _)

theorem survive_dichotomy (m : Mode) (keep : Nat → MemFault → Nat) (t : Times) (ht : GoodTimes t) (zs : List (Bytes × MemFault))
    (hs : List Hit) (hm : hs ∈ survive m keep t zs) (h : Hit) (hh : h ∈ hs) : h.spidertime.toNat < 2 ^ 48 ∨ Misdated h := by
  induction zs generalizing t with
  | nil => simp [survive] at hm
  | cons z zs ih =>
    obtain ⟨p, f⟩ := z
    rw [survive] at hm
    split_ifs at hm
    · exact ih t ht hm
    · rcases List.mem_append.mp hm with hm | hm
      · exact chunkHits_dichotomy m t ht _ hs (List.mem_of_mem_take hm) h hh
      · exact ih _ (timesAfter_good m t ht _) hm

theorem memLoop_end (o : ProgramOptions) (x : CliCtx) (sr : F64) (es : List F64) (mf : Nat → MemFault) (fuel k : Nat)
    (file : Bytes) (p : Nat) (hp : file.length ≤ p) (c : Clock) (w : Outputs) :
    memLoop o x sr es mf (fuel + 1) k ⟨file, p⟩ c w = .ok (.finished w) := by
  rw [memLoop, if_pos (by simp only [Reader.isEOF, decide_eq_true_eq]; omega)]

theorem memLoop_step (o : ProgramOptions) (x : CliCtx) (sr : F64) (es : List F64) (mf : Nat → MemFault) (hn0 : 0 < o.chunkSize)
    (fuel k : Nat) (file : Bytes) (p : Nat) (hp : p < file.length) (c : Clock) (w : Outputs) :
    memLoop o x sr es mf (fuel + 1) k ⟨file, p⟩ c w =
      if mf k = .read then memLoop o x sr es mf fuel (k + 1) ⟨file, p⟩ c w
      else if mf k = .find then memLoop o x sr es mf fuel (k + 1) ⟨file, min (p + o.chunkSize) file.length⟩ c w
      else match chunkEvents x ((file.drop p).take o.chunkSize) c with
      | .ub u => .ub u
      | .throws _ => memLoop o x sr es mf fuel (k + 1) ⟨file, min (p + o.chunkSize) file.length⟩ c w
      | .ok e => match memOutput o sr es (mf k) e.1 w with
        | .ub u => .ub u
        | .throws _ => memLoop o x sr es mf fuel (k + 1) ⟨file, min (p + o.chunkSize) file.length⟩ e.2 w
        | .ok (w', .terminate) => .ok (.terminated w')
        | .ok (w', .normal) => memLoop o x sr es mf fuel (k + 1) ⟨file, min (p + o.chunkSize) file.length⟩ e.2 w' := by
  rw [memLoop, if_neg (by simp only [Reader.isEOF, decide_eq_true_eq]; omega)]
  obtain ⟨r1, r2⟩ := readChunk_any file p o.chunkSize hp
  have hne' : (file.drop p).take o.chunkSize ≠ [] := by
    intro h0
    have := congrArg List.length h0
    rw [List.length_take, List.length_drop, List.length_nil] at this
    omega
  rw [r1, r2, if_neg hne']
  rfl

theorem perChunk_length (m : Mode) (t : Times) (cs : List Chunk) : (chunkHits m t cs).length = cs.length := by
  induction cs generalizing t with
  | nil => cases m <;> rfl
  | cons k ks ih => cases m <;> simp [chunkHits, ih]

/-- What a finished run of the loop has written. -/
theorem memLoop_written (o : ProgramOptions) (x : CliCtx) (sr : F64) (es : List F64) (mf : Nat → MemFault) (hn0 : 0 < o.chunkSize)
    (fuel k : Nat) (file : Bytes) (p : Nat) (c : Clock) (hc : c.timer.toNat < 2 ^ 32) (w w' : Outputs)
    (h : memLoop o x sr es mf fuel k ⟨file, p⟩ c w = .ok (.finished w')) :
    ∃ r hb eb fb, r < fuel ∧ (passed mf k r).length = (pieces o.chunkSize (file.drop p)).length ∧
      (hb.map fun b => b.batch.hits) = survive x.mode hitsKept c.times ((pieces o.chunkSize (file.drop p)).zip (passed mf k r)) ∧
      (eb.map fun b => b.batch.hits) = survive x.mode eventsKept c.times ((pieces o.chunkSize (file.drop p)).zip (passed mf k r)) ∧
      (fb.map fun b => b.batch.hits) = survive x.mode fullyKept c.times ((pieces o.chunkSize (file.drop p)).zip (passed mf k r)) ∧
      (∀ b ∈ hb ++ eb ++ fb, FromPackets x b) ∧ MemWritten o sr es w w' hb eb fb := by
  induction fuel generalizing k p c w with
  | zero => rw [memLoop] at h; simp at h
  | succ fuel ih =>
    by_cases hp : file.length ≤ p
    · rw [memLoop_end _ _ _ _ _ _ _ _ _ hp, Res.ok.injEq, LoopEnd.finished.injEq] at h
      subst h
      rw [List.drop_eq_nil_of_le hp, pieces_nil _ hn0]
      exact ⟨0, [], [], [], by omega, rfl, rfl, rfl, rfl, by simp, memWritten_nil o sr es w⟩
    · obtain ⟨r1, -⟩ := rest_pieces o.chunkSize hn0 file p (by omega)
      rw [memLoop_step _ _ _ _ _ hn0 _ _ _ _ (by omega)] at h
      by_cases hr : mf k = .read
      · rw [if_pos hr] at h
        obtain ⟨r, hb, eb, fb, a0, a⟩ := ih _ _ c hc w h
        refine ⟨r + 1, hb, eb, fb, by omega, ?_⟩
        rw [passed_succ, if_pos hr]
        exact a
      · rw [if_neg hr] at h
        by_cases hf : mf k = .find
        · rw [if_pos hf] at h
          obtain ⟨r, hb, eb, fb, a0, a1, a2, a3, a4, a5, a6⟩ := ih _ _ c hc w h
          refine ⟨r + 1, hb, eb, fb, by omega, ?_⟩
          rw [passed_succ, if_neg hr, r1, List.zip_cons_cons, survive, survive, survive, if_pos hf, if_pos hf, if_pos hf,
            List.length_cons, List.length_cons, a1]
          exact ⟨rfl, a2, a3, a4, a5, a6⟩
        · rw [if_neg hf] at h
          cases hce : chunkEvents x ((file.drop p).take o.chunkSize) c with
          | ub u => rw [hce] at h; simp at h
          | throws m => exact absurd hce (chunkEvents_no_throw x _ c m)
          | ok e =>
            have hno : ¬ Overrun ((file.drop p).take o.chunkSize) := by
              intro ho
              rw [chunk_overrun x _ ho c] at hce
              cases hce
            obtain ⟨e1, e2, e3⟩ := anyChunk_ok hno hce
            rw [perChunk_hits x.mode c hc] at e2
            obtain ⟨t1, t2⟩ := clockAfter_times x.mode c hc (announced (wordsOf ((file.drop p).take o.chunkSize)))
            have hlen : e.1.length = (announced (wordsOf ((file.drop p).take o.chunkSize))).length := by
              have := congrArg List.length e2
              rwa [List.length_map, perChunk_length] at this
            rw [hce] at h
            simp only at h
            split at h
            · cases h
            · rename_i m hm
              exact absurd hm (memOutput_no_throw _ _ _ _ _ _ _)
            · simp at h
            · rename_i w1 h1
              have k1 := memOutput_written o sr es (mf k) e.1 w w1 h1
              obtain ⟨r, hb, eb, fb, a0, a1, a2, a3, a4, a5, a6⟩ := ih _ _ e.2 (by rw [e1]; exact t2) w1 h
              refine ⟨r + 1, _, _, _, by omega, ?_, ?_, ?_, ?_, ?_, memWritten_trans k1 a6⟩
              · rw [passed_succ, if_neg hr, r1, List.length_cons, List.length_cons, a1]
              · rw [passed_succ, if_neg hr, r1, List.zip_cons_cons, survive, if_neg hf, List.map_append, List.map_take, e2, a2, e1, t1, hlen]
              · rw [passed_succ, if_neg hr, r1, List.zip_cons_cons, survive, if_neg hf, List.map_append, List.map_take, e2, a3, e1, t1, hlen]
              · rw [passed_succ, if_neg hr, r1, List.zip_cons_cons, survive, if_neg hf, List.map_append, List.map_take, e2, a4, e1, t1, hlen]
              · intro b hb'
                simp only [List.mem_append] at hb' a5
                rcases hb' with ((hb' | hb') | (hb' | hb')) | (hb' | hb')
                · exact e3 b (List.mem_of_mem_take hb')
                · exact a5 b (.inl (.inl hb'))
                · exact e3 b (List.mem_of_mem_take hb')
                · exact a5 b (.inl (.inr hb'))
                · exact e3 b (List.mem_of_mem_take hb')
                · exact a5 b (.inr hb')

/-! ### What is in the outputs -/

theorem memCore_finished (o : ProgramOptions) (s : Settings) (solve : List GaussRow → F64 × F64) (mf : Nat → MemFault) (fuel : Nat)
    (file : Bytes) (w : Outputs) (h : memCore o s solve mf fuel file = .ok (.finished w)) :
    ∃ es im, (o.needsImages = true → s.edges = .ok es ∧ initImages s.sr es = .ok im) ∧
      memLoop o ⟨o.mode, s.params, solve⟩ s.sr es mf fuel 0 ⟨file, 0⟩ Clock.zero ⟨[], [], im, 0, 0⟩ = .ok (.finished w) := by
  unfold memCore Reader.open at h
  by_cases hl : file.length = 0
  · rw [if_pos hl] at h
    cases h
  · rw [if_neg hl] at h
    simp only at h
    split_ifs at h with h1 h2 h3
    · simp at h
    · cases he : s.edges with
      | ub u => rw [he] at h; simp [Res.bind] at h
      | throws m => rw [he] at h; simp [Res.bind] at h
      | ok es =>
        rw [he] at h
        simp only [Res.bind] at h
        cases hi : initImages s.sr es with
        | ub u => rw [hi] at h; simp at h
        | throws m => rw [hi] at h; simp at h
        | ok im =>
          rw [hi] at h
          exact ⟨es, im, fun _ => ⟨rfl, hi⟩, h⟩
    · exact ⟨[], [], fun h' => absurd h' h3, h⟩

theorem allHits_empty (L : List (List Hit)) (he : L.flatten = []) (f g : H5) (h : appendAllHits L f = .ok g) : g = f := by
  induction L generalizing f with
  | nil => simp only [appendAllHits, Res.ok.injEq] at h; exact h.symm
  | cons b L ih =>
    rw [List.flatten_cons, List.append_eq_nil_iff] at he
    rw [appendAllHits, he.1] at h
    exact ih he.2 f h

/-- C125: whatever allocations fail in the rounds of the loop, if the program ends normally, the outputs are those of the pieces of the file
that got past reading, each cut where its round failed: `r` rounds were made, every piece was read in one of them, and the files have the
surviving hits, the events of the surviving batches and the counts of the batches that were complete. -/
theorem c125_outputs (o : ProgramOptions) (s : Settings) (hr : s.params.range ≤ 2 ^ 62) (hn : 0 < o.chunkSize)
    (solve : List GaussRow → F64 × F64) (mf : Nat → MemFault) (fuel : Nat) (file : Bytes) (w : Outputs)
    (h : memCore o s solve mf fuel file = .ok (.finished w)) :
    ∃ r hb eb fb, r < fuel ∧ (passed mf 0 r).length = (pieces o.chunkSize file).length ∧
      (hb.map fun b => b.batch.hits) = survive o.mode hitsKept ⟨0, 0, 0⟩ ((pieces o.chunkSize file).zip (passed mf 0 r)) ∧
      (eb.map fun b => b.batch.hits) = survive o.mode eventsKept ⟨0, 0, 0⟩ ((pieces o.chunkSize file).zip (passed mf 0 r)) ∧
      (fb.map fun b => b.batch.hits) = survive o.mode fullyKept ⟨0, 0, 0⟩ ((pieces o.chunkSize file).zip (passed mf 0 r)) ∧
      (∀ b ∈ hb ++ eb ++ fb, eventsOf ⟨o.mode, s.params, solve⟩ b.batch.hits = .ok b.neutrons) ∧
      (o.outHits ≠ [] → (hitsOf hb = [] → w.hits = []) ∧ (hitsOf hb ≠ [] →
          ∀ v ∈ hitAttrs, column w.hits "hits".toList v.1 = some ((hitsOf hb).map fun x => .fin (v.2 x)))) ∧
      (o.outEvents ≠ [] → (neutronsOf eb = [] → w.events = []) ∧ (neutronsOf eb ≠ [] →
          ∀ v ∈ neutronAttrs, column w.events "neutrons".toList v.1 = some ((neutronsOf eb).map v.2))) ∧
      (o.needsImages = true → ∀ sr qs, s.sr = .fin sr → s.edges = .ok (qs.map .fin) → qs.Pairwise (· < ·) → 2 ≤ qs.length →
        ∀ i y x, pixel w.images i y x = if i + 1 < qs.length ∧ y < side sr ∧ x < side sr then
          some (counted sr qs (side sr) (entryList (String.ofList o.tofMode) fb) i y x % 2 ^ 32) else none) ∧
      w.totalHits.toNat = (hitsOf fb).length % 2 ^ 64 ∧ w.totalNeutrons.toNat = (neutronsOf fb).length % 2 ^ 64 := by
  obtain ⟨es, im, him, hloop⟩ := memCore_finished o s solve mf fuel file w h
  obtain ⟨r, hb, eb, fb, a0, a1, a2, a3, a4, a5, k1, k2, k3, k4, k5⟩ :=
    memLoop_written o _ _ es mf hn fuel 0 file 0 Clock.zero (by decide) _ w hloop
  rw [List.drop_zero] at a1 a2 a3 a4
  refine ⟨r, hb, eb, fb, a0, a1, a2, a3, a4, fun b hb => (a5 b hb).2, ?_, ?_, ?_, ?_, ?_⟩
  · intro ho
    have k := k1 ho
    have hfl : (hb.map fun b => b.batch.hits).flatten = hitsOf hb := by rw [hitsOf, List.flatMap_def]
    refine ⟨fun he => allHits_empty _ (hfl.trans he) _ _ k, fun hne v hv => ?_⟩
    obtain ⟨f, g1, -, g3, -⟩ := c42_hits (hb.map fun b => b.batch.hits) (by
      intro cc hcc x hx
      have hdich := fun y hy => survive_dichotomy o.mode hitsKept ⟨0, 0, 0⟩ goodTimes_zero _ cc (a2 ▸ hcc) y hy
      have hdef := appendAllHits_defined _ _ _ k _ hcc x hx
      obtain ⟨b, hb', rfl⟩ := List.mem_map.mp hcc
      have hfp := a5 b (by simp [hb'])
      refine fromPackets_regular _ b hfp x hx hdef fun _ => ?_
      rcases hdich x hx with h5 | h5
      · exact h5
      · exfalso
        have h6 := eventsOf_misdated ⟨o.mode, s.params, solve⟩ hr b.batch.hits hdich ⟨x, hx, h5⟩
        rw [hfp.2] at h6
        cases h6) [] rfl
    rw [k, Res.ok.injEq] at g1
    rw [hfl] at g3
    rw [hits_name, g1]
    exact g3 hne v hv
  · intro ho
    have k := k2 ho
    have hfl : (eb.map fun b => b.neutrons).flatten = neutronsOf eb := by rw [neutronsOf, List.flatMap_def]
    obtain ⟨f, g1, g2, g3, -⟩ := c42_neutrons (eb.map fun b => b.neutrons) (by
      intro cc hcc n hn
      obtain ⟨b, hb, rfl⟩ := List.mem_map.mp hcc
      have := fromPackets_size _ b (a5 b (by simp [hb])) n hn
      omega) [] rfl
    rw [k, Res.ok.injEq] at g1
    rw [hfl] at g2 g3
    rw [neutrons_name, g1]
    exact ⟨g2, g3⟩
  · intro ho sr qs hsr hed hinc hl i y x
    obtain ⟨e1, e2⟩ := him ho
    rw [hed, Res.ok.injEq] at e1
    have k := k3 ho
    rw [← e1, hsr] at k e2
    exact c35_counts_partial sr qs hinc hl _ fb im w.images e2 k i y x
  · rw [k4, BitVec.toNat_add, BitVec.toNat_ofNat]
    simp only [hitsOf]
    exact show (0 + _ % 2 ^ 64) % 2 ^ 64 = _ by omega
  · rw [k5, BitVec.toNat_add, BitVec.toNat_ofNat]
    simp only [neutronsOf]
    exact show (0 + _ % 2 ^ 64) % 2 ^ 64 = _ by omega

/-! ### What survives -/

theorem timesAfter_of (m : Mode) (t : Times) (cs : List Chunk) : timesAfter m t cs = timesOf m t (cs.flatMap Chunk.packets) := by
  induction cs generalizing t with
  | nil => cases m <;> rfl
  | cons k ks ih =>
    rw [List.flatMap_cons, timesOf_append, ← ih]
    cases m <;> rfl

/-- C125: a piece in which the search for batches failed is as if it were not in the file, and of every other piece the failure costs the
batches from the failing one on and nothing else: the batches before it and all batches of the other pieces have the hits they have in a
run over those pieces without any failure. -/
theorem c125_own_only (m : Mode) (keep : Nat → MemFault → Nat) (t : Times) (zs : List (Bytes × MemFault)) :
    ∃ gs : List (List (List Hit)), gs.length = (zs.filter fun z => z.2 ≠ .find).length ∧
      gs.flatten = chunkHits m t ((zs.filter fun z => z.2 ≠ .find).flatMap fun z => announced (wordsOf z.1)) ∧
      survive m keep t zs = (gs.zip (zs.filter fun z => z.2 ≠ .find)).flatMap fun g => g.1.take (keep g.1.length g.2.2) := by
  induction zs generalizing t with
  | nil => exact ⟨[], rfl, by cases m <;> rfl, rfl⟩
  | cons z zs ih =>
    obtain ⟨p, f⟩ := z
    rw [survive]
    by_cases hf : f = .find
    · rw [if_pos hf, List.filter_cons_of_neg (by simp [hf])]
      exact ih t
    · rw [if_neg hf, List.filter_cons_of_pos (by simp [hf])]
      obtain ⟨gs, g1, g2, g3⟩ := ih (timesAfter m t (announced (wordsOf p)))
      refine ⟨chunkHits m t (announced (wordsOf p)) :: gs, by simp [g1], ?_, ?_⟩
      · rw [List.flatten_cons, g2, List.flatMap_cons, chunkHits_append, timesAfter_of]
      · rw [List.zip_cons_cons, List.flatMap_cons, g3, perChunk_length]

theorem flatMap_sublist {α β : Type} (l : List α) (f g : α → List β) (h : ∀ a ∈ l, (f a).Sublist (g a)) :
    (l.flatMap f).Sublist (l.flatMap g) := by
  induction l with
  | nil => exact List.Sublist.refl _
  | cons a l ih =>
    rw [List.flatMap_cons, List.flatMap_cons]
    exact (h a (by simp)).append (ih fun b hb => h b (by simp [hb]))

/-- C125: if the search for batches does not fail, the batches in the output are some of the batches of a run without failures, with
the same hits and in the same order; and all of them if nothing fails after reading. -/
theorem c125_sublist (m : Mode) (keep : Nat → MemFault → Nat) (n : Nat) (file : Bytes) (fs : List MemFault)
    (hl : fs.length = (pieces n file).length) (hf : ∀ f ∈ fs, f ≠ .find) :
    (survive m keep ⟨0, 0, 0⟩ ((pieces n file).zip fs)).Sublist (chunkHits m ⟨0, 0, 0⟩ (fileChunks n file)) ∧
    ((∀ f ∈ fs, f = .none) → (∀ k, keep k .none = k) →
      survive m keep ⟨0, 0, 0⟩ ((pieces n file).zip fs) = chunkHits m ⟨0, 0, 0⟩ (fileChunks n file)) := by
  obtain ⟨gs, g1, g2, g3⟩ := c125_own_only m keep ⟨0, 0, 0⟩ ((pieces n file).zip fs)
  have hall : ((pieces n file).zip fs).filter (fun z => z.2 ≠ .find) = (pieces n file).zip fs :=
    List.filter_eq_self.mpr fun z hz => by simpa using hf z.2 (List.of_mem_zip hz).2
  rw [hall] at g1 g2 g3
  have hp : ((pieces n file).zip fs).flatMap (fun z => announced (wordsOf z.1)) = fileChunks n file := by
    unfold fileChunks
    conv_rhs => rw [← List.map_fst_zip (l₁ := pieces n file) (l₂ := fs) (by omega), List.flatMap_map]
  rw [hp] at g2
  have hz : (gs.zip ((pieces n file).zip fs)).flatMap Prod.fst = gs.flatten := by
    rw [List.flatMap_def, List.map_fst_zip (by omega)]
  constructor
  · rw [g3, ← g2, ← hz]
    exact flatMap_sublist _ _ _ fun a _ => List.take_sublist _ _
  · intro hnone hk
    rw [g3, ← g2, ← hz]
    refine List.flatMap_congr fun a ha => ?_
    have : a.2.2 = .none := hnone _ (List.of_mem_zip (List.of_mem_zip ha).2).2
    rw [this, hk, List.take_length]

theorem outputBatches_any (o : ProgramOptions) (sr : F64) (es : List F64) (k k' : Nat) (bs : List EventBatch) (w : Outputs) :
    outputBatches o sr es (fun _ => {}) k bs w = outputBatches o sr es (fun _ => {}) k' bs w := by
  induction bs generalizing k k' w with
  | nil => rfl
  | cons b bs ih =>
    rw [outputBatches, outputBatches]
    split
    · exact ih _ _ _
    · rfl

theorem memLoop_none (o : ProgramOptions) (x : CliCtx) (sr : F64) (es : List F64) (fuel k k' : Nat) (r : Reader) (c : Clock) (w : Outputs) :
    memLoop o x sr es (fun _ => .none) fuel k r c w = mainLoop o x sr es (fun _ => {}) fuel k' r c w := by
  induction fuel generalizing k k' r c w with
  | zero => rfl
  | succ fuel ih =>
    rw [memLoop, mainLoop, if_neg (show ¬ MemFault.none = .read by decide), if_neg (show ¬ MemFault.none = .find by decide)]
    by_cases h1 : r.isEOF = true
    · rw [if_pos h1, if_pos h1]
    · rw [if_neg h1, if_neg h1]
      simp only
      by_cases h2 : (r.readChunk o.chunkSize).1 = []
      · rw [if_pos h2, if_pos h2]
      · rw [if_neg h2, if_neg h2]
        cases chunkEvents x (r.readChunk o.chunkSize).1 c with
        | ub u => rfl
        | throws m => exact ih _ _ _ _ _
        | ok e =>
          simp only [memOutput]
          rw [outputBatches_any o sr es k' 0]
          cases outputBatches o sr es (fun _ => {}) 0 e.1 w with
          | ub u => rfl
          | throws m => exact ih _ _ _ _ _
          | ok v =>
            obtain ⟨w', l⟩ := v
            cases l with
            | normal => exact ih _ _ _ _ _
            | terminate => rfl

/-- C125: if no allocation fails, the program is that of the other properties. -/
theorem c125_none (o : ProgramOptions) (s : Settings) (solve : List GaussRow → F64 × F64) (fuel : Nat) (file : Bytes) :
    memCore o s solve (fun _ => .none) fuel file = mainCore o s solve (fun _ => {}) fuel file := by
  unfold memCore mainCore
  cases Reader.open file with
  | ub u => rfl
  | throws m => rfl
  | ok r =>
    simp only
    split_ifs
    · rfl
    · rfl
    · cases (s.edges.bind fun es => (initImages s.sr es).bind fun im => Res.ok (es, im) : Res (List F64 × Stack)) with
      | ub u => rfl
      | throws m => rfl
      | ok v => exact memLoop_none o _ _ _ fuel 0 0 _ _ _
    · exact memLoop_none o _ _ _ fuel 0 0 _ _ _

/-! ### When the program ends -/

theorem memBatch_sound {x : CliCtx} (o : ProgramOptions) (sr : F64) (es : List F64) (st : MemStage) (b : EventBatch) (hb : SoundBatch x b)
    (w : Outputs) (hw : OutputsReady o sr es w) :
    ∃ w', memBatch o st b w = .ok (w', .normal) ∧ OutputsReady o sr es w' := by
  obtain ⟨h, hh1, hh2⟩ : ∃ h, (if o.outHits = [] then .ok w.hits else appendHits none (fun _ => none) b.batch.hits w.hits : Res H5) = .ok h ∧
      GroupReady h ['h', 'i', 't', 's'] (hitAttrs.map Prod.fst) := by
    split_ifs
    · exact ⟨_, rfl, hw.hits⟩
    · obtain ⟨f, h1, h2, -⟩ := appendHits_ok _ hb.regular w.hits hw.hits
      exact ⟨f, h1, h2⟩
  obtain ⟨e, he1, he2⟩ : ∃ e, (if o.outEvents = [] then .ok (w.events, false)
      else appendNeutrons none (fun _ => none) b.neutrons w.events : Res (H5 × Bool)) = .ok (e, false) ∧
      GroupReady e ['n', 'e', 'u', 't', 'r', 'o', 'n', 's'] (neutronAttrs.map Prod.fst) := by
    split_ifs
    · exact ⟨_, rfl, hw.events⟩
    · obtain ⟨f, h1, h2, -⟩ := appendNeutrons_ok _ hb.nHits w.events hw.events
      exact ⟨f, h1, h2⟩
  cases st with
  | hits => exact ⟨w, rfl, hw⟩
  | events =>
    unfold memBatch
    simp only [hh1]
    exact ⟨_, rfl, hh2, hw.events, hw.images⟩
  | images =>
    unfold memBatch
    simp only [hh1, he1]
    exact ⟨_, rfl, hh2, he2, hw.images⟩

theorem memOutput_sound {x : CliCtx} (o : ProgramOptions) (sr : F64) (es : List F64) (f : MemFault) (bs : List EventBatch)
    (hb : ∀ b ∈ bs, SoundBatch x b) (w : Outputs) (hw : OutputsReady o sr es w) :
    ∃ w', memOutput o sr es f bs w = .ok (w', .normal) ∧ OutputsReady o sr es w' := by
  cases f with
  | none => exact outputBatches_clean_sound o sr es 0 bs hb w hw
  | read => exact outputBatches_clean_sound o sr es 0 bs hb w hw
  | find => exact outputBatches_clean_sound o sr es 0 bs hb w hw
  | process => exact ⟨w, rfl, hw⟩
  | output i st =>
    obtain ⟨w', h1, h2⟩ := outputBatches_clean_sound o sr es 0 (bs.take i) (fun b hb' => hb b (List.mem_of_mem_take hb')) w hw
    simp only [memOutput, h1]
    cases hi : bs[i]? with
    | none => exact ⟨w', rfl, h2⟩
    | some b => exact memBatch_sound o sr es st b (hb b (List.mem_of_getElem? hi)) w' h2

theorem memLoop_sound (o : ProgramOptions) (x : CliCtx) (sr : F64) (es : List F64) (mf : Nat → MemFault) (hn0 : 0 < o.chunkSize)
    (hf : ∀ k, mf k ≠ .find) (fuel k : Nat) (file : Bytes) (p : Nat) (c : Clock) (w : Outputs)
    (hno : ∀ b ∈ pieces o.chunkSize (file.drop p), ¬ Overrun b)
    (hs : ∀ hs ∈ perChunk x.mode c (fileChunks o.chunkSize (file.drop p)), ∀ h ∈ hs, h.spidertime.toNat < 2 ^ 48 ∧ h.tof ≠ none)
    (hw : OutputsReady o sr es w) :
    (memLoop o x sr es mf fuel k ⟨file, p⟩ c w = .ok .running ∨ ∃ w', memLoop o x sr es mf fuel k ⟨file, p⟩ c w = .ok (.finished w')) ∧
    ∀ r, (pieces o.chunkSize (file.drop p)).length ≤ (passed mf k r).length → r < fuel →
      ∃ w', memLoop o x sr es mf fuel k ⟨file, p⟩ c w = .ok (.finished w') := by
  induction fuel generalizing k p c w with
  | zero => exact ⟨.inl rfl, fun r _ hr => by omega⟩
  | succ fuel ih =>
    by_cases hp : file.length ≤ p
    · rw [memLoop_end _ _ _ _ _ _ _ _ _ hp]
      exact ⟨.inr ⟨w, rfl⟩, fun _ _ _ => ⟨w, rfl⟩⟩
    · rw [memLoop_step _ _ _ _ _ hn0 _ _ _ _ (by omega)]
      obtain ⟨r1, r2⟩ := rest_pieces o.chunkSize hn0 file p (by omega)
      by_cases hr : mf k = .read
      · rw [if_pos hr]
        obtain ⟨i1, i2⟩ := ih (k + 1) p c w hno hs hw
        refine ⟨i1, fun r hl hrf => ?_⟩
        cases r with
        | zero => rw [r1] at hl; simp [passed] at hl
        | succ r =>
          rw [passed_succ, if_pos hr] at hl
          exact i2 r hl (by omega)
      · rw [if_neg hr, if_neg (hf k)]
        rw [r1] at hno
        rw [r2, (perChunk_append _ _ _ _).1] at hs
        obtain ⟨e, h1, h2, h3⟩ := anyChunk_sound x _ (hno _ (by simp)) c (fun l hl => hs l (List.mem_append_left _ hl))
        obtain ⟨w', s1, s2⟩ := memOutput_sound o sr es (mf k) e.1 h3 w hw
        rw [h1]
        simp only
        rw [s1]
        simp only
        obtain ⟨i1, i2⟩ := ih (k + 1) (min (p + o.chunkSize) file.length) e.2 w' (fun b hb => hno b (List.mem_cons_of_mem _ hb))
          (by rw [h2]; exact fun l hl => hs l (List.mem_append_right _ hl)) s2
        refine ⟨i1, fun r hl hrf => ?_⟩
        cases r with
        | zero => rw [r1] at hl; simp [passed] at hl
        | succ r =>
          rw [passed_succ, if_neg hr, r1, List.length_cons, List.length_cons] at hl
          exact i2 r (by omega) (by omega)

theorem memCore_loop (o : ProgramOptions) (s : Settings) (hp : ProperRun o s) (solve : List GaussRow → F64 × F64)
    (file : Bytes) (hf : file ≠ []) :
    ∃ es im, (o.needsImages = true → ImagesReady s.sr es im) ∧ ∀ mf fuel, memCore o s solve mf fuel file =
      memLoop o ⟨o.mode, s.params, solve⟩ s.sr es mf fuel 0 ⟨file, 0⟩ Clock.zero ⟨[], [], im, 0, 0⟩ := by
  have hlen : file.length ≠ 0 := fun h => hf (List.length_eq_zero_iff.mp h)
  have c1 : ¬ (o.outHits = o.input ∨ o.outEvents = o.input) := by
    intro h
    exact h.elim hp.hits hp.events
  have c2 : ¬ (o.outHits ≠ [] ∧ o.outHits = o.outEvents) := fun h => h.1 (hp.distinct h.2)
  unfold memCore Reader.open
  rw [if_neg hlen]
  by_cases hni : o.needsImages = true
  · obtain ⟨sr, es, im, e1, e2, e3, e4, e5, e6⟩ := hp.images hni
    refine ⟨es, im, fun _ => ?_, ?_⟩
    · obtain ⟨d, hd, hz⟩ := initImages_ok _ es e5 im e6
      exact ⟨sr, _, d, e1, e2, e3, e5, by rw [e1]; exact hd, by omega, zeroStack_shaped _ _ _ hz⟩
    · intro fl fuel
      simp only
      rw [if_neg c1, if_neg c2, if_pos hni, e4, e1]
      simp only [Res.bind, e6]
  · refine ⟨[], [], fun h => absurd h hni, ?_⟩
    intro fl fuel
    simp only
    rw [if_neg c1, if_neg c2, if_neg hni]

/-- C125: on a sound file, with any failures but those of the search for batches, nothing undefined happens and the program is not
terminated: it runs on, or it ends normally as if nothing had failed.  It ends exactly if the chunk can be allocated often enough: once for
each piece of the file. -/
theorem c125_ends_iff (o : ProgramOptions) (s : Settings) (hr : s.params.range ≤ 2 ^ 62) (hp : ProperRun o s)
    (solve : List GaussRow → F64 × F64) (file : Bytes)
    (hne : file ≠ []) (hu : ¬ Unsound o.mode o.chunkSize file) (mf : Nat → MemFault) (hf : ∀ k, mf k ≠ .find) :
    (∀ fuel, memCore o s solve mf fuel file = .ok .running ∨ ∃ w, memCore o s solve mf fuel file = .ok (.finished w)) ∧
    ((∃ fuel w, memCore o s solve mf fuel file = .ok (.finished w)) ↔ ∃ r, (pieces o.chunkSize file).length ≤ (passed mf 0 r).length) := by
  obtain ⟨es, im, hi, hm⟩ := memCore_loop o s hp solve file hne
  obtain ⟨h1, h2⟩ := sound_hits hu
  have hl := fun fuel => memLoop_sound o ⟨o.mode, s.params, solve⟩ s.sr es mf hp.size hf fuel 0 file 0 Clock.zero _ h1 h2
    (ready_nil o _ _ im hi)
  refine ⟨fun fuel => by rw [hm]; exact (hl fuel).1, ?_, ?_⟩
  · rintro ⟨fuel, w, h⟩
    obtain ⟨r, -, -, -, -, a, -⟩ := c125_outputs o s hr hp.size solve mf fuel file w h
    exact ⟨r, a.ge⟩
  · rintro ⟨r, hr'⟩
    obtain ⟨w, h⟩ := (hl (r + 1)).2 r hr' (by omega)
    exact ⟨r + 1, w, by rw [hm]; exact h⟩

/-- C125 is false for the end of the program: if the chunk can never be allocated, the program reads the same place for ever. -/
theorem c125_false_ends (o : ProgramOptions) (s : Settings) (hp : ProperRun o s) (solve : List GaussRow → F64 × F64) (file : Bytes)
    (hne : file ≠ []) (fuel : Nat) : memCore o s solve (fun _ => .read) fuel file = .ok .running := by
  obtain ⟨es, im, -, hm⟩ := memCore_loop o s hp solve file hne
  rw [hm]
  have hlen : 0 < file.length := List.length_pos_iff.mpr hne
  suffices h : ∀ k, memLoop o ⟨o.mode, s.params, solve⟩ s.sr es (fun _ => .read) fuel k ⟨file, 0⟩ Clock.zero ⟨[], [], im, 0, 0⟩ =
      .ok .running from h 0
  induction fuel with
  | zero => exact fun _ => rfl
  | succ fuel ih =>
    intro k
    rw [memLoop_step _ _ _ _ _ hp.size _ _ _ _ hlen, if_pos rfl]
    exact ih (k + 1)

/-- A trigger, and a hit announced by the next header; two chunks of 16 bytes. -/
def triggerThenHit : Bytes := streamBytes [⟨0x0008000033585054#64, [0x6F00000000005000#64]⟩, ⟨0x0008000033585054#64, [0xB123400000A00009#64]⟩]

def smallChunks : ProgramOptions := { hitsAndEvents with chunkSize := 16 }

/-- C125 is false for the search for batches: the failure costs the trigger, and with it the hit of the next chunk.  The program
ends normally, with code 0 and no hit in the file. -/
theorem c125_false_find : (∃ w, memCore smallChunks plainSettings (fun _ => (.nan, .nan)) (fun k => if k = 0 then .find else .none) 3
      triggerThenHit = .ok (.finished w) ∧ columnRows w.hits "hits".toList ['x'] = 0 ∧ w.totalHits = 0) ∧
    ∃ w, memCore smallChunks plainSettings (fun _ => (.nan, .nan)) (fun k => if k = 0 then .process else .none) 3
      triggerThenHit = .ok (.finished w) ∧ columnRows w.hits "hits".toList ['x'] = 1 ∧ w.totalHits = 1 :=
  ⟨finished_of (P := fun w => columnRows w.hits "hits".toList ['x'] = 0 ∧ w.totalHits = 0) _ (by decide +kernel),
    finished_of (P := fun w => columnRows w.hits "hits".toList ['x'] = 1 ∧ w.totalHits = 1) _ (by decide +kernel)⟩

/-- C125 is false for the agreement of the outputs: after a failure in the output of the events, the hit is in its file, the neutron is
in no file, and neither is counted.  The program ends normally. -/
theorem c125_false_agree : ∃ w, memCore hitsAndEvents plainSettings (fun _ => (.nan, .nan)) (fun _ => .output 0 .events) 2 oneHit =
      .ok (.finished w) ∧ columnRows w.hits "hits".toList ['x'] = 1 ∧ columnRows w.events "neutrons".toList ['x'] = 0 ∧
      w.totalHits = 0 ∧ w.totalNeutrons = 0 :=
  finished_of (P := fun w => columnRows w.hits "hits".toList ['x'] = 1 ∧ columnRows w.events "neutrons".toList ['x'] = 0 ∧
      w.totalHits = 0 ∧ w.totalNeutrons = 0) _ (by decide +kernel)

/-- The assumptions of `c125_outputs` and `c125_ends_iff` are met by a run that reads in vain twice. -/
example : ProperRun hitsAndEvents plainSettings ∧ (∃ w, memCore hitsAndEvents plainSettings (fun _ => (.nan, .nan))
      (fun k => if k < 2 then .read else .none) 4 oneHit = .ok (.finished w) ∧ w.totalHits = 1) ∧
    passed (fun k => if k < 2 then .read else .none) 0 3 = [.none] ∧ (pieces hitsAndEvents.chunkSize oneHit).length = 1 :=
  ⟨proper_tdc, finished_of (P := fun w => w.totalHits = 1) _ (by decide +kernel), by decide +kernel, by decide +kernel⟩

/-- The assumptions of `c125_sublist` are met with hits that survive and hits that do not. -/
example : (pieces 24 (triggerThenHit ++ oneHit)).length = 3 ∧
    survive .tdc hitsKept ⟨0, 0, 0⟩ ((pieces 32 (triggerThenHit ++ oneHit)).zip [.none, .process]) ≠
      chunkHits .tdc ⟨0, 0, 0⟩ (fileChunks 32 (triggerThenHit ++ oneHit)) ∧
    (survive .tdc hitsKept ⟨0, 0, 0⟩ ((pieces 32 (triggerThenHit ++ oneHit)).zip [.none, .process])).flatten ≠ [] := by
  refine ⟨by decide +kernel, ?_, by decide +kernel⟩
  intro h
  have := congrArg List.length h
  revert this
  decide +kernel

end Verif.Props
