import Verif.Model.CliMain
import Verif.Props.Hit
import Verif.Props.H5
import Verif.Props.Image
import Verif.Props.Reader
import Verif.Props.Tiff
import Verif.Props.Peak

/-!
# C74: the outputs of one run agree
-/

namespace Verif.Props

open Verif Verif.Spec

/-! ## What the loop hands to the output -/

/-- The hits of a batch were decoded from at most 8191 packets and the events are those of these hits. -/
def FromPackets (x : CliCtx) (b : EventBatch) : Prop :=
  (∃ chip ws c, ws.length ≤ 8191 ∧ b.batch.hits = (runPackets x.mode true chip ws c).2) ∧
    eventsOf x b.batch.hits = .ok b.neutrons

theorem headerPackets_le (w : U64) : headerPackets w ≤ 8191 := by
  rw [headerPackets_field]
  unfold field
  omega

theorem locate_batches (m : Mode) (buf : Bytes) (bs : List Batch) (c : Clock) (r : List Batch × Clock)
    (h : locate m buf bs c = .ok r) :
    ∀ b ∈ r.1, ∃ b0 ∈ bs, b.hits = b0.hits ∧ b.numPackets = b0.numPackets := by
  induction bs generalizing c r with
  | nil =>
    rw [locate] at h; injection h with h; subst h; simp
  | cons b0 bs ih =>
    simp only [locate, updateTimestamp_eq, bind, Res.bind] at h
    by_cases hp : reachesPartial buf b0.index b0.numPackets
    · rw [if_pos hp] at h; simp at h
    · rw [if_neg hp] at h
      simp only at h
      cases hl : locate m buf bs (runPackets m true b0.chip (batchPackets buf b0.index b0.numPackets) c).1 with
      | ub u => rw [hl] at h; simp at h
      | throws e => rw [hl] at h; simp at h
      | ok s =>
        rw [hl] at h
        simp only [Res.ok.injEq] at h
        subst h
        intro b hb
        rcases List.mem_cons.mp hb with rfl | hb
        · exact ⟨b0, by simp, rfl, rfl⟩
        · obtain ⟨b1, h1, h2⟩ := ih _ s hl b hb
          exact ⟨b1, by simp [h1], h2⟩

theorem oneAll_batches (x : CliCtx) (buf : Bytes) (bs : List Batch) (es : List EventBatch)
    (hb : ∀ b ∈ bs, b.hits = [] ∧ b.numPackets ≤ 8191)
    (h : oneAll ⟨x.mode, buf, x.params, x.solve⟩ (bs.map fun b => ⟨b, []⟩) = .ok es) : ∀ e ∈ es, FromPackets x e := by
  induction bs generalizing es with
  | nil => rw [List.map_nil, oneAll] at h; injection h with h; subst h; simp
  | cons b bs ih =>
    obtain ⟨hb0, hbn⟩ := hb b (by simp)
    simp only [List.map_cons, oneAll, bind] at h
    cases h1 : ProcCtx.one ⟨x.mode, buf, x.params, x.solve⟩ ⟨b, []⟩ with
    | ub u => rw [h1] at h; simp [Res.bind] at h
    | throws m => rw [h1] at h; simp [Res.bind] at h
    | ok e0 =>
      rw [h1] at h
      simp only [Res.bind] at h
      cases h2 : oneAll ⟨x.mode, buf, x.params, x.solve⟩ (bs.map fun b => ⟨b, []⟩) with
      | ub u => rw [h2] at h; simp at h
      | throws m => rw [h2] at h; simp at h
      | ok es' =>
        rw [h2] at h
        simp only [Res.ok.injEq] at h
        subst h
        intro e he
        rcases List.mem_cons.mp he with rfl | he
        · have hp : ¬ reachesPartial buf b.index b.numPackets := by
            intro hp
            unfold ProcCtx.one at h1
            simp [extractHits_eq, if_pos hp, bind, Res.bind] at h1
          have := one_eq x buf b hp hb0
          rw [h1] at this
          simp only [Res.bind] at this
          cases hev : eventsOf x (runPackets x.mode true b.chip (batchPackets buf b.index b.numPackets) b.clock).2 with
          | ub u => rw [hev] at this; simp at this
          | throws m => rw [hev] at this; simp at this
          | ok ns =>
            rw [hev] at this
            simp only [Res.ok.injEq, Prod.mk.injEq] at this
            refine ⟨⟨b.chip, _, b.clock, ?_, this.1⟩, ?_⟩
            · unfold batchPackets
              rw [List.length_take]
              omega
            · rw [this.1, hev, this.2]
        · exact ih es' (fun b hb' => hb b (by simp [hb'])) h2 e he

theorem chunkEvents_batches (x : CliCtx) (buf : Bytes) (c : Clock) (r : List EventBatch × Clock)
    (h : chunkEvents x buf c = .ok r) : ∀ e ∈ r.1, FromPackets x e := by
  unfold chunkEvents at h
  rw [findTPX3H_eq] at h
  simp only [bind, Res.bind] at h
  cases hl : locate x.mode buf (scan (wordsOf buf) 0) c with
  | ub u => rw [hl] at h; simp at h
  | throws m => rw [hl] at h; simp at h
  | ok s =>
    rw [hl] at h
    simp only at h
    cases ho : oneAll ⟨x.mode, buf, x.params, x.solve⟩ (s.1.map fun b => ⟨b, []⟩) with
    | ub u => rw [ho] at h; simp at h
    | throws m => rw [ho] at h; simp at h
    | ok es =>
      rw [ho] at h
      simp only [Res.ok.injEq] at h
      subst h
      refine oneAll_batches x buf s.1 es ?_ ho
      intro b hb
      obtain ⟨b0, h0, h1, h2⟩ := locate_batches x.mode buf _ c s hl b hb
      obtain ⟨k, hk, -, rfl⟩ := (mem_scan _ _ _).mp h0
      rw [h1, h2]
      exact ⟨rfl, headerPackets_le _⟩

theorem cliLoop_batches (x : CliCtx) (n fuel : Nat) (r : Reader) (c : Clock) (out : List EventBatch)
    (ho : ∀ e ∈ out, FromPackets x e) (bs : List EventBatch) (c' : Clock)
    (h : cliLoop x n fuel r c out = .ok (some (bs, c'))) : ∀ e ∈ bs, FromPackets x e := by
  induction fuel generalizing r c out with
  | zero => simp [cliLoop] at h
  | succ fuel ih =>
    rw [cliLoop] at h
    split_ifs at h with h1
    · simp only [Res.ok.injEq, Option.some.injEq, Prod.mk.injEq] at h
      rw [← h.1]; exact ho
    · simp only at h
      split_ifs at h with h2
      · simp only [Res.ok.injEq, Option.some.injEq, Prod.mk.injEq] at h
        rw [← h.1]; exact ho
      · cases hc : chunkEvents x (r.readChunk n).1 c with
        | ub u => rw [hc] at h; simp at h
        | throws m => exact absurd hc (chunkEvents_no_throw x _ c m)
        | ok e =>
          rw [hc] at h
          refine ih _ _ _ ?_ h
          intro b hb
          rcases List.mem_append.mp hb with hb | hb
          · exact ho b hb
          · exact chunkEvents_batches x _ c e hc b hb

theorem cliRun_batches (x : CliCtx) (n fuel : Nat) (file : Bytes) (bs : List EventBatch) (c : Clock)
    (h : cliRun x n fuel file = .ok (some (bs, c))) : ∀ e ∈ bs, FromPackets x e := by
  unfold cliRun Reader.open at h
  split_ifs at h with h0
  exact cliLoop_batches x n fuel _ _ [] (by simp) bs c h

/-! ### Ranges -/

theorem step_hit (m : Mode) (chip : Int) (w : U64) (c : Clock) (h : Hit) (hh : h ∈ (step m true chip w c).2) :
    (m = .gdc ∧ h = hitGdc w c.tdc c.gdc chip) ∨ (m = .tdc ∧ h = hitTdc w c.tdc chip) := by
  cases m with
  | gdc =>
    left
    refine ⟨rfl, ?_⟩
    simp only [step, stepGdc] at hh
    split_ifs at hh <;> simp_all
  | tdc =>
    right
    refine ⟨rfl, ?_⟩
    simp only [step, stepTdc] at hh
    split_ifs at hh <;> simp_all

theorem step_hits_length (m : Mode) (chip : Int) (w : U64) (c : Clock) : (step m true chip w c).2.length ≤ 1 := by
  cases m <;> simp only [step, stepGdc, stepTdc] <;> split_ifs <;> simp

theorem runPackets_hits (m : Mode) (chip : Int) (ws : List U64) (c : Clock) :
    (runPackets m true chip ws c).2.length ≤ ws.length ∧
    ∀ h ∈ (runPackets m true chip ws c).2, ∃ w tdc gdc, (m = .gdc ∧ h = hitGdc w tdc gdc chip) ∨ (m = .tdc ∧ h = hitTdc w tdc chip) := by
  induction ws generalizing c with
  | nil => exact ⟨le_rfl, by simp [runPackets]⟩
  | cons w ws ih =>
    obtain ⟨i1, i2⟩ := ih (step m true chip w c).1
    have := step_hits_length m chip w c
    simp only [runPackets]
    refine ⟨by rw [List.length_append, List.length_cons]; omega, ?_⟩
    intro h hh
    rcases List.mem_append.mp hh with hh | hh
    · exact ⟨w, c.tdc, c.gdc, step_hit m chip w c h hh⟩
    · exact i2 h hh

theorem hit_ranges (m : Mode) (h : Hit) (chip : Int) (w tdc gdc : U64)
    (hh : (m = .gdc ∧ h = hitGdc w tdc gdc chip) ∨ (m = .tdc ∧ h = hitTdc w tdc chip)) :
    (0 ≤ h.x ∧ h.x ≤ 515) ∧ (0 ≤ h.y ∧ h.y ≤ 515) ∧ (0 ≤ h.tot ∧ h.tot < 1024) ∧ (0 ≤ h.toa ∧ h.toa < 16384) ∧
      (0 ≤ h.ftoa ∧ h.ftoa < 16) ∧ (m = .tdc → h.spidertime.toNat < 2 ^ 31) := by
  have hd := c01_on_detector w tdc gdc chip
  simp only at hd
  have h1 : decTot w < 1024 := by unfold decTot; rw [BitVec.toNat_and]; exact lt_of_le_of_lt Nat.and_le_right (by decide)
  have h2 : decToa w < 16384 := by unfold decToa; rw [BitVec.toNat_and]; exact lt_of_le_of_lt Nat.and_le_right (by decide)
  have h3 : decFtoa w < 16 := by unfold decFtoa; rw [BitVec.toNat_and]; exact lt_of_le_of_lt Nat.and_le_right (by decide)
  rcases hh with ⟨rfl, rfl⟩ | ⟨rfl, rfl⟩
  · refine ⟨by omega, by omega, ?_, ?_, ?_, by simp⟩ <;> simp only [hitGdc] <;> omega
  · refine ⟨by omega, by omega, ?_, ?_, ?_, ?_⟩
    · simp only [hitTdc]; omega
    · simp only [hitTdc]; omega
    · simp only [hitTdc]; omega
    · intro _
      have a1 : (rawStamp w).toNat < 2 ^ 31 := by
        unfold rawStamp
        rw [BitVec.toNat_or]
        refine Nat.or_lt_two_pow ?_ ?_
        · rw [BitVec.toNat_shiftLeft, BitVec.toNat_setWidth]
          have := (u16Of w 0).isLt
          rw [Nat.shiftLeft_eq]
          omega
        · rw [BitVec.toNat_ofNat]; omega
      change (extendStamp (rawStamp w) tdc).toNat < 2 ^ 31
      unfold extendStamp
      split_ifs
      · rw [BitVec.toNat_or]
        exact Nat.or_lt_two_pow a1 (by decide)
      · exact a1

theorem events_size (x : CliCtx) (hs : List Hit) (ns : List Neutron) (h : eventsOf x hs = .ok ns) :
    ∀ n ∈ ns, n.nHits ≤ hs.length := by
  unfold eventsOf at h
  simp only [bind] at h
  cases hf : (AbsObj.new x.params).fit hs with
  | ub u => rw [hf] at h; simp [Res.bind] at h
  | throws m => rw [hf] at h; simp [Res.bind] at h
  | ok o' =>
    rw [hf] at h
    simp only [Res.bind] at h
    have hlen := (c24_labels _ o' hs hf).1
    have hc := fit_consistent hf
    have hpm := (fit_inv hf).choose_spec.choose_spec.choose_spec.2
    unfold AbsObj.getEvents at h
    rw [if_neg (by simpa using hlen)] at h
    by_cases hnil : o'.labels = []
    · rw [if_pos hnil] at h
      simp only [Res.ok.injEq] at h
      subst h
      simp
    · rw [if_neg hnil, hpm.2.1] at h
      have ha : AbsObj.algorithm x.solve (AbsObj.new x.params).method = some (centroidFit true (F64.ofRat 1)) := by
        unfold AbsObj.algorithm AbsObj.new; rw [if_pos rfl]
      rw [ha] at h
      intro e hee
      obtain ⟨l, -, -, h1, -⟩ := eventLoop_mem hc hnil hlen _ _ ns h e hee
      have hle : (members hs o'.labels l).length ≤ hs.length := by
        unfold members
        rw [List.length_map]
        refine le_trans (List.length_filter_le _ _) ?_
        rw [List.length_zip]
        omega
      unfold centroidFit at h1
      by_cases h0 : (members hs o'.labels l).length = 0
      · rw [if_pos h0] at h1
        injection h1 with h1
        rw [← h1]
        exact Nat.zero_le _
      · rw [if_neg h0] at h1
        simp only [bind] at h1
        cases hcl : centroidLoop true (F64.ofRat 1) ⟨F64.ofRat 0, F64.ofRat 0, F64.ofRat 0, F64.ofRat 0⟩
            (members hs o'.labels l) with
        | ub u => rw [hcl] at h1; simp [Res.bind] at h1
        | throws m => rw [hcl] at h1; simp [Res.bind] at h1
        | ok a =>
          rw [hcl] at h1
          simp only [Res.bind, Res.ok.injEq] at h1
          rw [← h1]
          exact hle

/-! ## The loop with its outputs -/

theorem lowerBoundGo_no_throw (es : List F64) (v : F64) (fuel first len : Nat) (e : String) :
    lowerBoundGo es v fuel first len ≠ .throws e := by
  induction fuel generalizing first len with
  | zero => simp [lowerBoundGo]
  | succ fuel ih =>
    rw [lowerBoundGo]
    split_ifs
    · simp
    · split
      · simp
      · split_ifs
        · exact ih _ _
        · exact ih _ _

theorem toPixel_no_throw (sr raw : F64) (e : String) : toPixel sr raw ≠ .throws e := by
  unfold toPixel; split <;> simp

theorem placeEntry_no_throw (sr : F64) (edges : List F64) (n : Nat) (d : Int) (x : Entry) (e : String) :
    placeEntry sr edges n d x ≠ .throws e := by
  unfold placeEntry
  simp only [bind]
  by_cases h0 : (F64.lt x.tof (.fin 0) || !x.tof.isFinite) = true
  · rw [if_pos h0]; simp
  · rw [if_neg h0]
    split
    · rename_i front back _ _
      by_cases hr : (F64.lt (F64.div x.tof (F64.ofRat 1000000000)) front ||
          F64.le back (F64.div x.tof (F64.ofRat 1000000000))) = true
      · rw [if_pos hr]; simp
      · rw [if_neg hr]
        cases h : lowerBound edges (F64.div x.tof (F64.ofRat 1000000000)) with
        | throws m => exact absurd h (lowerBoundGo_no_throw _ _ _ _ _ m)
        | ub u => simp [Res.bind]
        | ok it =>
          simp only [Res.bind]
          split
          · simp
          · split
            · simp
            · split
              · simp
              · cases h1 : toPixel sr x.x with
                | throws m => exact absurd h1 (toPixel_no_throw _ _ m)
                | ub u => simp
                | ok a =>
                  simp only
                  cases h2 : toPixel sr x.y with
                  | throws m => exact absurd h2 (toPixel_no_throw _ _ m)
                  | ub u => simp
                  | ok b => simp only; split_ifs <;> simp
    · simp

theorem addEntries_no_throw (sr : F64) (edges : List F64) (d : Int) (im : Stack) (xs : List Entry) (e : String) :
    addEntries sr edges d im xs ≠ .throws e := by
  induction xs generalizing im with
  | nil => simp [addEntries]
  | cons x xs ih =>
    simp only [addEntries, addEntry, bind]
    cases h : placeEntry sr edges im.length d x with
    | throws m => exact absurd h (placeEntry_no_throw _ _ _ _ _ m)
    | ub u => simp [Res.bind]
    | ok o =>
      simp only [Res.bind]
      cases o with
      | none => exact ih im
      | some t =>
        obtain ⟨b, y, z⟩ := t
        simp only
        cases h2 : bump im b y z with
        | throws m => unfold bump at h2; split at h2 <;> [skip; split at h2 <;> [skip; split at h2]] <;> simp at h2
        | ub u => simp
        | ok im' => exact ih im'

/-- Updating the images raises no exception. -/
theorem updateImages_no_throw (sr : F64) (edges : List F64) (mode : String) (im : Stack) (b : EventBatch) (e : String) :
    updateImages sr edges mode im b ≠ .throws e := by
  unfold updateImages
  simp only [bind]
  split_ifs
  · simp
  · cases h : dimOf sr with
    | throws m => unfold dimOf at h; split at h <;> simp at h
    | ub u => simp [Res.bind]
    | ok d =>
      simp only [Res.bind]
      cases h2 : entriesOf mode b with
      | throws m =>
        exfalso
        unfold entriesOf at h2
        split_ifs at h2
        have : ∀ l : List Hit, l.mapM Hit.entry ≠ .throws m := by
          intro l
          induction l with
          | nil => simp [List.mapM_nil, pure]
          | cons a l ih =>
            rw [List.mapM_cons]
            simp only [bind]
            cases h3 : Hit.entry a with
            | throws m => unfold Hit.entry at h3; split at h3 <;> simp at h3
            | ub u => simp [Res.bind]
            | ok a' =>
              simp only [Res.bind]
              cases h4 : l.mapM Hit.entry with
              | throws m' => intro h; simp only [Res.throws.injEq] at h; rw [h] at h4; exact ih h4
              | ub u => simp
              | ok l' => simp [pure]
        exact this _ h2
      | ub u => simp
      | ok xs => exact addEntries_no_throw _ _ _ _ _ _

theorem outputBatch_no_throw (o : ProgramOptions) (sr : F64) (es : List F64) (fl : BatchFaults) (b : EventBatch) (w : Outputs)
    (e : String) : outputBatch o sr es fl b w ≠ .throws e := by
  unfold outputBatch
  intro h
  split at h
  · simp at h
  · simp at h
  · split at h
    · simp at h
    · simp at h
    · simp at h
    · split at h
      · simp at h
      · rename_i hm
        split_ifs at hm
        exact updateImages_no_throw _ _ _ _ _ _ hm
      · simp at h

theorem outputBatches_no_throw (o : ProgramOptions) (sr : F64) (es : List F64) (fl : Nat → BatchFaults) (k : Nat)
    (bs : List EventBatch) (w : Outputs) (e : String) : outputBatches o sr es fl k bs w ≠ .throws e := by
  induction bs generalizing k w with
  | nil => simp [outputBatches]
  | cons b bs ih =>
    rw [outputBatches]
    split
    · exact ih _ _
    · exact outputBatch_no_throw _ _ _ _ _ _ _

theorem outputBatches_append (o : ProgramOptions) (sr : F64) (es : List F64) (fl : Nat → BatchFaults) (k : Nat)
    (as bs : List EventBatch) (w w' : Outputs) (h : outputBatches o sr es fl k as w = .ok (w', .normal)) :
    outputBatches o sr es fl k (as ++ bs) w = outputBatches o sr es fl (k + as.length) bs w' := by
  induction as generalizing k w with
  | nil =>
    simp only [outputBatches, Res.ok.injEq, Prod.mk.injEq, and_true] at h
    rw [h]; rfl
  | cons a as ih =>
    rw [List.cons_append, outputBatches]
    rw [outputBatches] at h
    split at h
    · rename_i w1 h1
      rw [ih _ _ h, List.length_cons]
      congr 1
      omega
    · rename_i h1
      exact absurd h (h1 w')

theorem outputBatches_bad (o : ProgramOptions) (sr : F64) (es : List F64) (fl : Nat → BatchFaults) (k : Nat)
    (as bs : List EventBatch) (w w' : Outputs) (h : ∀ w1, outputBatches o sr es fl k as w ≠ .ok (w1, .normal)) :
    outputBatches o sr es fl k (as ++ bs) w ≠ .ok (w', .normal) := by
  induction as generalizing k w with
  | nil => exact absurd rfl (h w)
  | cons a as ih =>
    rw [List.cons_append, outputBatches]
    rw [outputBatches] at h
    split
    · rename_i w1 h1
      rw [h1] at h
      exact ih _ _ h
    · rename_i h1
      exact h1 w'

theorem cliLoop_result (x : CliCtx) (n fuel : Nat) (r : Reader) (c : Clock) (out bs : List EventBatch) (c' : Clock)
    (h : cliLoop x n fuel r c out = .ok (some (bs, c'))) :
    ∃ bs', bs = out ++ bs' ∧ ∀ out', cliLoop x n fuel r c out' = .ok (some (out' ++ bs', c')) := by
  induction fuel generalizing r c out with
  | zero => simp [cliLoop] at h
  | succ fuel ih =>
    simp only [cliLoop] at h ⊢
    split_ifs at h ⊢ with h1 h2
    · simp only [Res.ok.injEq, Option.some.injEq, Prod.mk.injEq] at h
      exact ⟨[], by simp [h.1], by simp [h.2]⟩
    · simp only [Res.ok.injEq, Option.some.injEq, Prod.mk.injEq] at h
      exact ⟨[], by simp [h.1], by simp [h.2]⟩
    · cases hc : chunkEvents x (r.readChunk n).1 c with
      | ub u => rw [hc] at h; simp at h
      | throws m => exact absurd hc (chunkEvents_no_throw x _ c m)
      | ok e =>
        rw [hc] at h
        obtain ⟨bs', rfl, h3⟩ := ih _ _ _ h
        refine ⟨e.1 ++ bs', by rw [List.append_assoc], ?_⟩
        intro out'
        simp only
        rw [h3, List.append_assoc]

/-- The loop ends normally exactly when the batches of the run can all be handed to the output. -/
theorem mainLoop_finished (o : ProgramOptions) (x : CliCtx) (sr : F64) (es : List F64) (fl : Nat → BatchFaults) (fuel k : Nat)
    (r : Reader) (c : Clock) (w w' : Outputs) :
    mainLoop o x sr es fl fuel k r c w = .ok (.finished w') ↔
      ∃ bs c', (∀ out, cliLoop x o.chunkSize fuel r c out = .ok (some (out ++ bs, c'))) ∧
        outputBatches o sr es fl k bs w = .ok (w', .normal) := by
  induction fuel generalizing k r c w with
  | zero => simp [mainLoop, cliLoop]
  | succ fuel ih =>
    rw [mainLoop]
    simp only [cliLoop]
    by_cases h1 : r.isEOF = true
    · simp only [if_pos h1, Res.ok.injEq, LoopEnd.finished.injEq, Option.some.injEq, Prod.mk.injEq]
      constructor
      · rintro rfl
        exact ⟨[], c, by simp, rfl⟩
      · rintro ⟨bs, c', h, h2⟩
        have := (h []).1
        rw [List.nil_append] at this
        rw [← this] at h2
        simp only [outputBatches, Res.ok.injEq, Prod.mk.injEq, and_true] at h2
        exact h2
    · simp only [if_neg h1]
      by_cases h2 : (r.readChunk o.chunkSize).1 = []
      · simp only [if_pos h2, Res.ok.injEq, LoopEnd.finished.injEq, Option.some.injEq, Prod.mk.injEq]
        constructor
        · rintro rfl
          exact ⟨[], c, by simp, rfl⟩
        · rintro ⟨bs, c', h, h2⟩
          have := (h []).1
          rw [List.nil_append] at this
          rw [← this] at h2
          simp only [outputBatches, Res.ok.injEq, Prod.mk.injEq, and_true] at h2
          exact h2
      · simp only [if_neg h2]
        cases hc : chunkEvents x (r.readChunk o.chunkSize).1 c with
        | ub u => simp
        | throws m => exact absurd hc (chunkEvents_no_throw x _ c m)
        | ok e =>
          simp only
          cases ho : outputBatches o sr es fl k e.1 w with
          | throws m => exact absurd ho (outputBatches_no_throw _ _ _ _ _ _ _ m)
          | ub u =>
            simp only [reduceCtorEq, false_iff]
            rintro ⟨bs, c', h, h3⟩
            obtain ⟨bs', rfl, h4⟩ := cliLoop_result x _ fuel _ _ _ _ _ (h [])
            exact absurd h3 (outputBatches_bad o sr es fl k e.1 bs' w w' (by rw [ho]; simp))
          | ok p =>
            obtain ⟨w1, l⟩ := p
            cases l with
            | terminate =>
              simp only [Res.ok.injEq, reduceCtorEq, false_iff]
              rintro ⟨bs, c', h, h3⟩
              obtain ⟨bs', rfl, h4⟩ := cliLoop_result x _ fuel _ _ _ _ _ (h [])
              exact absurd h3 (outputBatches_bad o sr es fl k e.1 bs' w w' (by rw [ho]; simp))
            | normal =>
              simp only
              rw [ih]
              constructor
              · rintro ⟨bs, c', h, h3⟩
                refine ⟨e.1 ++ bs, c', fun out => ?_, ?_⟩
                · rw [h, List.append_assoc]
                · rw [outputBatches_append _ _ _ _ _ _ _ _ _ ho]; exact h3
              · rintro ⟨bs, c', h, h3⟩
                obtain ⟨bs', rfl, h4⟩ := cliLoop_result x _ fuel _ _ _ _ _ (h [])
                refine ⟨bs', c', ?_, ?_⟩
                · exact h4
                · rw [List.nil_append, outputBatches_append _ _ _ _ _ _ _ _ _ ho] at h3; exact h3

/-- What a run without failures of the libraries does with its batches. -/
theorem outputBatches_clean (o : ProgramOptions) (sr : F64) (es : List F64) (k : Nat) (bs : List EventBatch) (w w' : Outputs)
    (h : outputBatches o sr es (fun _ => {}) k bs w = .ok (w', .normal)) :
    (o.outHits ≠ [] → appendAllHits (bs.map fun b => b.batch.hits) w.hits = .ok w'.hits) ∧
    (o.outEvents ≠ [] → appendAllNeutrons (bs.map fun b => b.neutrons) w.events = .ok w'.events) ∧
    (o.needsImages = true → updateAll sr es (String.ofList o.tofMode) w.images bs = .ok w'.images) ∧
    w'.totalHits = w.totalHits + BitVec.ofNat 64 (bs.flatMap fun b => b.batch.hits).length ∧
    w'.totalNeutrons = w.totalNeutrons + BitVec.ofNat 64 (bs.flatMap fun b => b.neutrons).length := by
  induction bs generalizing k w with
  | nil =>
    simp only [outputBatches, Res.ok.injEq, Prod.mk.injEq, and_true] at h
    subst h
    refine ⟨fun _ => rfl, fun _ => rfl, fun _ => rfl, ?_, ?_⟩ <;> simp
  | cons b bs ih =>
    rw [outputBatches] at h
    split at h
    · rename_i w1 h1
      obtain ⟨i1, i2, i3, i4, i5⟩ := ih _ _ h
      unfold outputBatch at h1
      split at h1
      · simp at h1
      · simp at h1
      · rename_i hh hh1
        split at h1
        · simp at h1
        · simp at h1
        · simp at h1
        · rename_i he he1
          split at h1
          · simp at h1
          · simp at h1
          · rename_i im him
            simp only [Res.ok.injEq, Prod.mk.injEq, and_true] at h1
            subst h1
            simp only at i1 i2 i3 i4 i5
            refine ⟨?_, ?_, ?_, ?_, ?_⟩
            · intro ho
              rw [if_neg ho] at hh1
              rw [List.map_cons, appendAllHits, hh1]
              exact i1 ho
            · intro ho
              rw [if_neg ho] at he1
              rw [List.map_cons, appendAllNeutrons, he1]
              exact i2 ho
            · intro ho
              rw [if_pos ho] at him
              rw [updateAll, him]
              exact i3 ho
            · rw [i4, List.flatMap_cons, List.length_append, BitVec.ofNat_add, BitVec.add_assoc]
            · rw [i5, List.flatMap_cons, List.length_append, BitVec.ofNat_add, BitVec.add_assoc]
    · rename_i h1
      exact absurd h (h1 w')

theorem appendAllHits_defined (chunks : List (List Hit)) (f f' : H5) (h : appendAllHits chunks f = .ok f') :
    ∀ c ∈ chunks, ∀ x ∈ c, x.tof ≠ none := by
  induction chunks generalizing f with
  | nil => simp
  | cons c cs ih =>
    rw [appendAllHits] at h
    cases h1 : appendHits none (fun _ => none) c f with
    | ub u => rw [h1] at h; simp [Res.bind] at h
    | throws m => rw [h1] at h; simp [Res.bind] at h
    | ok f1 =>
      rw [h1] at h
      intro d hd x hx ht
      rcases List.mem_cons.mp hd with rfl | hd
      · rw [c42_indeterminate d ⟨x, hx, ht⟩] at h1
        simp at h1
      · exact ih f1 h d hd x hx ht

/-- The loop of the program in terms of the batches of the run. -/
theorem mainCore_batches (o : ProgramOptions) (s : Settings) (solve : List GaussRow → F64 × F64) (fl : Nat → BatchFaults)
    (fuel : Nat) (file : Bytes) (w : Outputs) (h : mainCore o s solve fl fuel file = .ok (.finished w)) :
    ∃ bs c es im, cliRun ⟨o.mode, s.params, solve⟩ o.chunkSize fuel file = .ok (some (bs, c)) ∧
      (o.needsImages = true → s.edges = .ok es ∧ initImages s.sr es = .ok im) ∧
      outputBatches o s.sr es fl 0 bs ⟨[], [], im, 0, 0⟩ = .ok (w, .normal) := by
  unfold mainCore at h
  unfold cliRun
  cases hr : Reader.open file with
  | ub u => rw [hr] at h; simp at h
  | throws m => rw [hr] at h; simp at h
  | ok r =>
    rw [hr] at h
    simp only at h ⊢
    split_ifs at h with h1 h2 h3
    · simp at h
    · cases he : s.edges with
      | ub u => rw [he] at h; simp [Res.bind] at h
      | throws m => rw [he] at h; simp [Res.bind] at h
      | ok es =>
        rw [he] at h
        cases hi : initImages s.sr es with
        | ub u => simp [Res.bind, hi] at h
        | throws m => simp [Res.bind, hi] at h
        | ok im =>
          simp only [Res.bind, hi] at h
          obtain ⟨bs, c', g1, g2⟩ := (mainLoop_finished _ _ _ _ _ _ _ _ _ _ _).mp h
          exact ⟨bs, c', es, im, by simpa using g1 [], fun _ => ⟨rfl, hi⟩, g2⟩
    · simp only at h
      obtain ⟨bs, c', g1, g2⟩ := (mainLoop_finished _ _ _ _ _ _ _ _ _ _ _).mp h
      exact ⟨bs, c', [], [], by simpa using g1 [], fun hn => absurd hn h3, g2⟩

theorem fromPackets_regular (x : CliCtx) (b : EventBatch) (hb : FromPackets x b) (h : Hit) (hh : h ∈ b.batch.hits)
    (ht : h.tof ≠ none) (hs : x.mode = .gdc → h.spidertime.toNat < 2 ^ 48) : RegularHit h := by
  obtain ⟨⟨chip, ws, c, -, he⟩, -⟩ := hb
  rw [he] at hh
  obtain ⟨w, tdc, gdc, hw⟩ := (runPackets_hits x.mode chip ws c).2 h hh
  obtain ⟨r1, r2, r3, r4, r5, r6⟩ := hit_ranges x.mode h chip w tdc gdc hw
  refine ⟨?_, ?_, ?_, ?_, ?_, ht, ?_⟩
  · rw [abs_of_nonneg r1.1]; omega
  · rw [abs_of_nonneg r2.1]; omega
  · rw [abs_of_nonneg r3.1]; omega
  · rw [abs_of_nonneg r4.1]; omega
  · rw [abs_of_nonneg r5.1]; omega
  · cases hm : x.mode with
    | gdc => exact hs hm
    | tdc => have := r6 hm; omega

theorem fromPackets_size (x : CliCtx) (b : EventBatch) (hb : FromPackets x b) : ∀ n ∈ b.neutrons, n.nHits ≤ 8191 := by
  obtain ⟨⟨chip, ws, c, hl, he⟩, hev⟩ := hb
  intro n hn
  have h1 := events_size x _ _ hev n hn
  rw [he] at h1
  have := (runPackets_hits x.mode chip ws c).1
  omega

/-- All hits of a run, in order. -/
def hitsOf (bs : List EventBatch) : List Hit := bs.flatMap fun b => b.batch.hits

/-- All neutrons of a run, in order. -/
def neutronsOf (bs : List EventBatch) : List Neutron := bs.flatMap fun b => b.neutrons

/-! ## C74 -/

/-- C74: whenever the loop of the program ends normally and no library call failed, the file of hits, the file of neutrons,
the images and the two printed totals all describe the same batches `bs`, every hit and every neutron exactly once and in
order.  Missing: in global-clock mode the columns need a 48-bit spider time; the counts wrap at 2^32 and the totals at 2^64;
the bin edges must increase; and failing library calls, for which the claim is false (`c74_false_column`). -/
theorem c74_agree_partial (o : ProgramOptions) (s : Settings) (solve : List GaussRow → F64 × F64) (fuel : Nat) (file : Bytes)
    (w : Outputs) (h : mainCore o s solve (fun _ => {}) fuel file = .ok (.finished w)) :
    ∃ bs c, cliRun ⟨o.mode, s.params, solve⟩ o.chunkSize fuel file = .ok (some (bs, c)) ∧
      (o.outHits ≠ [] → (∀ x ∈ hitsOf bs, x.tof ≠ none) ∧ (hitsOf bs = [] → w.hits = []) ∧
        ((o.mode = .gdc → ∀ x ∈ hitsOf bs, x.spidertime.toNat < 2 ^ 48) → hitsOf bs ≠ [] →
          ∀ v ∈ hitAttrs, column w.hits "hits".toList v.1 = some ((hitsOf bs).map fun x => .fin (v.2 x)))) ∧
      (o.outEvents ≠ [] → (neutronsOf bs = [] → w.events = []) ∧ (neutronsOf bs ≠ [] →
          ∀ v ∈ neutronAttrs, column w.events "neutrons".toList v.1 = some ((neutronsOf bs).map v.2))) ∧
      (o.needsImages = true → ∀ sr qs, s.sr = .fin sr → s.edges = .ok (qs.map .fin) → qs.Pairwise (· < ·) → 2 ≤ qs.length →
        ∀ i y x, pixel w.images i y x = if i + 1 < qs.length ∧ y < side sr ∧ x < side sr then
          some (counted sr qs (side sr) (entryList (String.ofList o.tofMode) bs) i y x % 2 ^ 32) else none) ∧
      w.totalHits.toNat = (hitsOf bs).length % 2 ^ 64 ∧ w.totalNeutrons.toNat = (neutronsOf bs).length % 2 ^ 64 := by
  obtain ⟨bs, c, es, im, hrun, him, hout⟩ := mainCore_batches o s solve _ fuel file w h
  obtain ⟨k1, k2, k3, k4, k5⟩ := outputBatches_clean o s.sr es 0 bs _ w hout
  have hfrom := cliRun_batches _ _ _ _ _ _ hrun
  refine ⟨bs, c, hrun, ?_, ?_, ?_, ?_, ?_⟩
  · intro ho
    have k := k1 ho
    have hdef : ∀ x ∈ hitsOf bs, x.tof ≠ none := by
      intro x hx
      obtain ⟨b, hb, hxb⟩ := List.mem_flatMap.mp hx
      exact appendAllHits_defined _ _ _ k _ (List.mem_map.mpr ⟨b, hb, rfl⟩) x hxb
    have hfl : (bs.map fun b => b.batch.hits).flatten = hitsOf bs := by rw [hitsOf, List.flatMap_def]
    refine ⟨hdef, ?_, ?_⟩
    · intro he
      have : ∀ (bs : List EventBatch), hitsOf bs = [] → ∀ f g : H5, appendAllHits (bs.map fun b => b.batch.hits) f = .ok g → g = f := by
        intro bs
        induction bs with
        | nil => intro _ f g h; simp only [List.map_nil, appendAllHits, Res.ok.injEq] at h; exact h.symm
        | cons b bs ih =>
          intro he f g h
          rw [hitsOf, List.flatMap_cons, List.append_eq_nil_iff] at he
          rw [List.map_cons, appendAllHits, he.1] at h
          exact ih he.2 f g h
      exact this bs he _ _ k
    · intro hsp hne v hv
      obtain ⟨f, g1, -, g3, -⟩ := c42_hits (bs.map fun b => b.batch.hits) (by
        intro cc hcc x hx
        obtain ⟨b, hb, rfl⟩ := List.mem_map.mp hcc
        have hm : x ∈ hitsOf bs := List.mem_flatMap.mpr ⟨b, hb, hx⟩
        exact fromPackets_regular _ b (hfrom b hb) x hx (hdef x hm) (fun hg => hsp hg x hm)) [] rfl
      rw [k] at g1
      injection g1 with g1
      rw [hfl] at g3
      rw [hits_name, g1]
      exact g3 hne v hv
  · intro ho
    have k := k2 ho
    have hfl : (bs.map fun b => b.neutrons).flatten = neutronsOf bs := by rw [neutronsOf, List.flatMap_def]
    obtain ⟨f, g1, g2, g3, -⟩ := c42_neutrons (bs.map fun b => b.neutrons) (by
      intro cc hcc n hn
      obtain ⟨b, hb, rfl⟩ := List.mem_map.mp hcc
      have := fromPackets_size _ b (hfrom b hb) n hn
      omega) [] rfl
    rw [k] at g1
    injection g1 with g1
    rw [hfl] at g2 g3
    rw [neutrons_name, g1]
    exact ⟨g2, g3⟩
  · intro ho sr qs hsr hed hinc hl i y x
    obtain ⟨e1, e2⟩ := him ho
    rw [hed] at e1
    injection e1 with e1
    have k := k3 ho
    rw [← e1, hsr] at k e2
    exact c35_counts_partial sr qs hinc hl _ bs im w.images e2 k i y x
  · rw [k4, BitVec.toNat_add, BitVec.toNat_ofNat]
    simp only [hitsOf]
    exact show (0 + _ % 2 ^ 64) % 2 ^ 64 = _ by omega
  · rw [k5, BitVec.toNat_add, BitVec.toNat_ofNat]
    simp only [neutronsOf]
    exact show (0 + _ % 2 ^ 64) % 2 ^ 64 = _ by omega

/-! ### Whole streams -/

theorem cliLoop_mono (x : CliCtx) (n fuel k : Nat) (r : Reader) (c : Clock) (out : List EventBatch) (v : List EventBatch × Clock)
    (h : cliLoop x n fuel r c out = .ok (some v)) : cliLoop x n (fuel + k) r c out = .ok (some v) := by
  induction fuel generalizing r c out with
  | zero => simp [cliLoop] at h
  | succ fuel ih =>
    rw [Nat.add_right_comm, cliLoop]
    rw [cliLoop] at h
    split_ifs at h ⊢ with h1
    · exact h
    · simp only at h ⊢
      split_ifs at h ⊢ with h2
      · exact h
      · split at h
        · exact ih _ _ _ h
        · exact ih _ _ _ h
        · simp at h

theorem cliRun_mono (x : CliCtx) (n fuel k : Nat) (file : Bytes) (v : List EventBatch × Clock)
    (h : cliRun x n fuel file = .ok (some v)) : cliRun x n (fuel + k) file = .ok (some v) := by
  unfold cliRun at h ⊢
  split at h
  · exact cliLoop_mono _ _ _ _ _ _ _ _ h
  · simp at h
  · simp at h

/-- The packets of a stream, each with the chip of its header. -/
def tagged (cs : List Chunk) : List (Int × U64) := cs.flatMap fun k => k.packets.map (headerChipId k.header, ·)

/-- One pass over the packets of a stream. -/
def onePass (m : Mode) (t : Times) (ps : List (Int × U64)) : List Hit := match m with
  | .gdc => passG t ps
  | .tdc => passT t ps

theorem perChunk_pass (m : Mode) (c : Clock) (hc : c.timer.toNat < 2 ^ 32) (cs : List Chunk) :
    (perChunk m c cs).flatten = onePass m c.times (tagged cs) := by
  induction cs generalizing c with
  | nil => cases m <;> rfl
  | cons k ks ih =>
    rw [perChunk, List.flatten_cons]
    cases m with
    | gdc =>
      obtain ⟨r1, r2, r3⟩ := runGdc_spec (headerChipId k.header) k.packets c hc
      rw [ih _ r2, r1, r3]
      simp only [onePass, tagged, List.flatMap_cons, passG_append]
    | tdc =>
      obtain ⟨r1, r3⟩ := runTdc_spec (headerChipId k.header) k.packets c
      have ht : (runPackets .tdc true (headerChipId k.header) k.packets c).1.timer.toNat < 2 ^ 32 := by
        have := congrArg Times.low r1
        have hl : ∀ ws t, (timesT t ws).low = t.low := by
          intro ws
          induction ws with
          | nil => intro t; rfl
          | cons w ws ih2 =>
            intro t
            rw [timesT_cons, ih2]
            unfold nextT
            split_ifs <;> rfl
        rw [hl] at this
        simp only [Clock.times] at this
        omega
      rw [ih _ ht, r1, r3]
      simp only [onePass, tagged, List.flatMap_cons, passT_append]

theorem evAll_fst (x : CliCtx) (hs : List (List Hit)) (v : List (List Hit × List Neutron)) (h : evAll x hs = .ok v) :
    v.map Prod.fst = hs ∧ ∀ p ∈ v, eventsOf x p.1 = .ok p.2 := by
  induction hs generalizing v with
  | nil => simp only [evAll, Res.ok.injEq] at h; subst h; simp
  | cons a hs ih =>
    simp only [evAll, bind] at h
    cases h1 : eventsOf x a with
    | ub u => rw [h1] at h; simp [Res.bind] at h
    | throws m => rw [h1] at h; simp [Res.bind] at h
    | ok es =>
      rw [h1] at h
      simp only [Res.bind] at h
      cases h2 : evAll x hs with
      | ub u => rw [h2] at h; simp at h
      | throws m => rw [h2] at h; simp at h
      | ok r =>
        rw [h2] at h
        simp only [Res.ok.injEq] at h
        subst h
        obtain ⟨i1, i2⟩ := ih r h2
        refine ⟨by rw [List.map_cons, i1], ?_⟩
        intro p hp
        rcases List.mem_cons.mp hp with rfl | hp
        · exact h1
        · exact i2 p hp

/-- The batches of a run over a well-formed stream cut between its chunks: one per chunk of the stream, with the hits that
one pass over all packets finds. -/
theorem cliRun_stream (x : CliCtx) (n : Nat) (hn0 : 0 < n) (cs : List Chunk) (hcs : cs ≠ [])
    (hw : ∀ k ∈ cs, k.WellFormed) (hn : ∀ k ∈ cs, k.NoLookAlike)
    (hcut : ∀ j, j * n < (streamBytes cs).length → ∃ k, j * n = (streamBytes (cs.take k)).length)
    (fuel : Nat) (bs : List EventBatch) (c : Clock) (h : cliRun x n fuel (streamBytes cs) = .ok (some (bs, c))) :
    bs.length = cs.length ∧ hitsOf bs = onePass x.mode ⟨0, 0, 0⟩ (tagged cs) := by
  have h' := cliRun_mono x n fuel ((streamBytes cs).length + 1) _ _ h
  have hb := c22_boundaries_partial x n hn0 cs hcs hw hn hcut (fuel + ((streamBytes cs).length + 1)) (by omega)
  rw [chunk_stream x cs Clock.zero hw hn, h'] at hb
  simp only [runOutput, Res.bind, Option.map_some] at hb
  cases he : evAll x (perChunk x.mode Clock.zero cs) with
  | ub u => rw [he] at hb; simp at hb
  | throws m => rw [he] at hb; simp at hb
  | ok v =>
    rw [he] at hb
    simp only [Res.ok.injEq, Option.some.injEq, Prod.mk.injEq] at hb
    obtain ⟨e1, -⟩ := evAll_fst x _ v he
    rw [← hb.1] at e1
    have e2 : bs.map (fun b => b.batch.hits) = perChunk x.mode Clock.zero cs := by
      rw [← e1, outputOf, List.map_map]; rfl
    constructor
    · have := congrArg List.length e2
      rw [List.length_map] at this
      rw [this]
      have hl : ∀ (cs : List Chunk) c, (perChunk x.mode c cs).length = cs.length := by
        intro cs
        induction cs with
        | nil => intro c; rfl
        | cons k ks ih => intro c; rw [perChunk, List.length_cons, ih, List.length_cons]
      exact hl cs _
    · rw [hitsOf, List.flatMap_def, e2, perChunk_pass _ _ (by decide)]
      rfl

/-- C74 from the bytes of the detector to the file of hits: for a well-formed stream whose chunks the reader does not cut,
a run that ends normally has written, for every datable hit packet of the stream and for nothing else, its decoded values, in
the order of the stream.  Missing: streams cut inside a chunk, for which it is false (`c22_false`). -/
theorem c74_stream_partial (o : ProgramOptions) (s : Settings) (solve : List GaussRow → F64 × F64) (fuel : Nat)
    (cs : List Chunk) (hcs : cs ≠ []) (hw : ∀ k ∈ cs, k.WellFormed) (hn : ∀ k ∈ cs, k.NoLookAlike) (hn0 : 0 < o.chunkSize)
    (hcut : ∀ j, j * o.chunkSize < (streamBytes cs).length → ∃ k, j * o.chunkSize = (streamBytes (cs.take k)).length)
    (w : Outputs) (h : mainCore o s solve (fun _ => {}) fuel (streamBytes cs) = .ok (.finished w)) (ho : o.outHits ≠ [])
    (hsp : o.mode = .gdc → ∀ x ∈ passG ⟨0, 0, 0⟩ (tagged cs), x.spidertime.toNat < 2 ^ 48) :
    w.totalHits.toNat = (onePass o.mode ⟨0, 0, 0⟩ (tagged cs)).length % 2 ^ 64 ∧
    (onePass o.mode ⟨0, 0, 0⟩ (tagged cs) = [] → w.hits = []) ∧
    (onePass o.mode ⟨0, 0, 0⟩ (tagged cs) ≠ [] → ∀ v ∈ hitAttrs, column w.hits "hits".toList v.1 =
      some ((onePass o.mode ⟨0, 0, 0⟩ (tagged cs)).map fun x => .fin (v.2 x))) := by
  obtain ⟨bs, c, hrun, hh, -, -, ht, -⟩ := c74_agree_partial o s solve fuel _ w h
  obtain ⟨-, hp⟩ := cliRun_stream _ _ hn0 cs hcs hw hn hcut fuel bs c hrun
  simp only at hp
  rw [hp] at hh ht
  obtain ⟨-, g1, g2⟩ := hh ho
  refine ⟨ht, g1, g2 ?_⟩
  intro hg
  rw [hg]
  exact hsp hg

/-- The batches of a run that are all regular can be handed to the output. -/
theorem outputBatches_ends (o : ProgramOptions) (sr : F64) (es : List F64) (k : Nat) (bs : List EventBatch) (w : Outputs)
    (hr : ∀ b ∈ bs, ∀ x ∈ b.batch.hits, RegularHit x) (hn : ∀ b ∈ bs, ∀ n ∈ b.neutrons, n.nHits < 2 ^ 31)
    (hg : GroupReady w.hits ['h', 'i', 't', 's'] (hitAttrs.map Prod.fst))
    (hg' : GroupReady w.events ['n', 'e', 'u', 't', 'r', 'o', 'n', 's'] (neutronAttrs.map Prod.fst))
    (him : o.needsImages = true → ∃ im, updateAll sr es (String.ofList o.tofMode) w.images bs = .ok im) :
    ∃ w', outputBatches o sr es (fun _ => {}) k bs w = .ok (w', .normal) := by
  induction bs generalizing k w with
  | nil => exact ⟨w, rfl⟩
  | cons b bs ih =>
    obtain ⟨f1, a1, a2, -⟩ := appendHits_ok b.batch.hits (hr b (by simp)) w.hits hg
    obtain ⟨f2, b1, b2, -⟩ := appendNeutrons_ok b.neutrons (hn b (by simp)) w.events hg'
    obtain ⟨im, i1, i2⟩ : ∃ im, (if o.needsImages = true then updateImages sr es (String.ofList o.tofMode) w.images b
        else .ok w.images : Res Stack) = .ok im ∧
        (o.needsImages = true → ∃ im', updateAll sr es (String.ofList o.tofMode) im bs = .ok im') := by
      by_cases h : o.needsImages = true
      · rw [if_pos h]
        obtain ⟨im', him'⟩ := him h
        rw [updateAll] at him'
        simp only [bind] at him'
        cases hu : updateImages sr es (String.ofList o.tofMode) w.images b with
        | ub u => rw [hu] at him'; simp [Res.bind] at him'
        | throws m => rw [hu] at him'; simp [Res.bind] at him'
        | ok im => rw [hu] at him'; exact ⟨im, rfl, fun _ => ⟨im', him'⟩⟩
      · exact ⟨w.images, if_neg h, fun h' => absurd h' h⟩
    obtain ⟨f1', c1, c2⟩ : ∃ f, (if o.outHits = [] then .ok w.hits else appendHits none (fun _ => none) b.batch.hits w.hits : Res H5) =
        .ok f ∧ GroupReady f ['h', 'i', 't', 's'] (hitAttrs.map Prod.fst) := by
      by_cases h : o.outHits = []
      · exact ⟨w.hits, if_pos h, hg⟩
      · exact ⟨f1, by rw [if_neg h, a1], a2⟩
    obtain ⟨f2', d1, d2⟩ : ∃ f, (if o.outEvents = [] then .ok (w.events, false)
        else appendNeutrons none (fun _ => none) b.neutrons w.events : Res (H5 × Bool)) =
        .ok (f, false) ∧ GroupReady f ['n', 'e', 'u', 't', 'r', 'o', 'n', 's'] (neutronAttrs.map Prod.fst) := by
      by_cases h : o.outEvents = []
      · exact ⟨w.events, if_pos h, hg'⟩
      · exact ⟨f2, by rw [if_neg h, b1], b2⟩
    rw [outputBatches]
    have he : outputBatch o sr es {} b w = .ok (⟨f1', f2', im, w.totalHits + BitVec.ofNat 64 b.batch.hits.length,
        w.totalNeutrons + BitVec.ofNat 64 b.neutrons.length⟩, .normal) := by
      unfold outputBatch
      simp only [c1, d1, i1]
    rw [he]
    exact ih (k + 1) _ (fun b' hb => hr b' (by simp [hb])) (fun b' hb => hn b' (by simp [hb])) c2 d2 i2

/-- The runs are there if the images can be counted. -/
theorem main_ends (o : ProgramOptions) (s : Settings) (solve : List GaussRow → F64 × F64)
    (cs : List Chunk) (hcs : cs ≠ []) (hw : ∀ k ∈ cs, k.WellFormed) (hn : ∀ k ∈ cs, k.NoLookAlike) (hn0 : 0 < o.chunkSize)
    (hcut : ∀ j, j * o.chunkSize < (streamBytes cs).length → ∃ k, j * o.chunkSize = (streamBytes (cs.take k)).length)
    (hd : ∀ x ∈ onePass o.mode ⟨0, 0, 0⟩ (tagged cs), x.tof ≠ none ∧ x.spidertime.toNat < 2 ^ 48)
    (hp1 : o.outHits ≠ o.input) (hp2 : o.outEvents ≠ o.input) (hp3 : o.outHits = o.outEvents → o.outHits = [])
    (fuel : Nat) (hfuel : (streamBytes cs).length < fuel)
    (him : o.needsImages = true → ∃ es im, s.edges = .ok es ∧ initImages s.sr es = .ok im ∧
      ∀ bs c, cliRun ⟨o.mode, s.params, solve⟩ o.chunkSize fuel (streamBytes cs) = .ok (some (bs, c)) →
        hitsOf bs = onePass o.mode ⟨0, 0, 0⟩ (tagged cs) → ∃ im', updateAll s.sr es (String.ofList o.tofMode) im bs = .ok im') :
    ∃ w, mainCore o s solve (fun _ => {}) fuel (streamBytes cs) = .ok (.finished w) := by
  obtain ⟨x, hx⟩ : ∃ x : CliCtx, x = ⟨o.mode, s.params, solve⟩ := ⟨_, rfl⟩
  have hxm : x.mode = o.mode := by rw [hx]
  have hpass := perChunk_pass x.mode Clock.zero (by decide) cs
  obtain ⟨v, hv⟩ : ∃ v, evAll x (perChunk x.mode Clock.zero cs) = .ok v := by
    have hall : ∀ hs ∈ perChunk x.mode Clock.zero cs, ∀ h ∈ hs, h.spidertime.toNat < 2 ^ 48 ∧ h.tof ≠ none := by
      intro hs hhs h hh
      have hm : h ∈ (perChunk x.mode Clock.zero cs).flatten := List.mem_flatten.mpr ⟨hs, hhs, hh⟩
      rw [hpass, hxm] at hm
      exact (hd h hm).symm
    generalize perChunk x.mode Clock.zero cs = L at hall
    induction L with
    | nil => exact ⟨[], rfl⟩
    | cons a L ih =>
      obtain ⟨es, he⟩ := eventsOf_returns x a (hall a (by simp))
      obtain ⟨v, hv⟩ := ih fun hs hh => hall hs (by simp [hh])
      exact ⟨(a, es) :: v, by simp [evAll, bind, Res.bind, he, hv]⟩
  have hb := c22_boundaries_partial x o.chunkSize hn0 cs hcs hw hn hcut fuel hfuel
  rw [chunk_stream x cs Clock.zero hw hn, hv] at hb
  simp only [Res.bind] at hb
  obtain ⟨bs, c, hrun⟩ : ∃ bs c, cliRun x o.chunkSize fuel (streamBytes cs) = .ok (some (bs, c)) := by
    cases hr : cliRun x o.chunkSize fuel (streamBytes cs) with
    | ub u => rw [hr] at hb; simp [runOutput, Res.bind] at hb
    | throws m => rw [hr] at hb; simp [runOutput, Res.bind] at hb
    | ok q =>
      cases q with
      | none => rw [hr] at hb; simp [runOutput, Res.bind] at hb
      | some q => exact ⟨q.1, q.2, rfl⟩
  have hfrom := cliRun_batches _ _ _ _ _ _ hrun
  obtain ⟨-, hhits⟩ := cliRun_stream x _ hn0 cs hcs hw hn hcut fuel bs c hrun
  have hreg : ∀ b ∈ bs, ∀ h ∈ b.batch.hits, RegularHit h := by
    intro b hb h hh
    have hm : h ∈ hitsOf bs := List.mem_flatMap.mpr ⟨b, hb, hh⟩
    rw [hhits, hxm] at hm
    exact fromPackets_regular x b (hfrom b hb) h hh (hd h hm).1 fun _ => (hd h hm).2
  have hnum : ∀ b ∈ bs, ∀ n ∈ b.neutrons, n.nHits < 2 ^ 31 := by
    intro b hb n hn'
    have := fromPackets_size x b (hfrom b hb) n hn'
    omega
  have hopen : Reader.open (streamBytes cs) = .ok ⟨streamBytes cs, 0⟩ := by
    unfold Reader.open
    rw [if_neg]
    exact fun h => hcs ((streamBytes_nil_iff cs).mp h)
  have hloop : ∀ out, cliLoop x o.chunkSize fuel ⟨streamBytes cs, 0⟩ Clock.zero out = .ok (some (out ++ bs, c)) := by
    unfold cliRun at hrun
    rw [hopen] at hrun
    obtain ⟨bs', rfl, h2⟩ := cliLoop_result x _ _ _ _ _ _ _ hrun
    exact h2
  have hg : GroupReady [] ['h', 'i', 't', 's'] (hitAttrs.map Prod.fst) := by intro g hg; simp at hg
  have hg' : GroupReady [] ['n', 'e', 'u', 't', 'r', 'o', 'n', 's'] (neutronAttrs.map Prod.fst) := by intro g hg; simp at hg
  unfold mainCore
  rw [hopen]
  simp only
  rw [if_neg (by rintro (h | h); exacts [hp1 h, hp2 h]), if_neg (fun h => h.1 (hp3 h.2))]
  by_cases hni : o.needsImages = true
  · obtain ⟨es, im, e4, e6, e7⟩ := him hni
    rw [if_pos hni, e4]
    simp only [Res.bind, e6]
    have hup := e7 bs c (by rw [← hx]; exact hrun) (by rw [hhits, hxm])
    obtain ⟨w', hw'⟩ := outputBatches_ends o s.sr es 0 bs ⟨[], [], im, 0, 0⟩ hreg hnum hg hg' fun _ => hup
    exact ⟨w', (mainLoop_finished _ _ _ _ _ _ _ _ _ _ _).mpr ⟨bs, c, by rw [← hx]; exact hloop, hw'⟩⟩
  · rw [if_neg hni]
    simp only
    obtain ⟨w', hw'⟩ := outputBatches_ends o s.sr [] 0 bs ⟨[], [], [], 0, 0⟩ hreg hnum hg hg' fun h => absurd h hni
    exact ⟨w', (mainLoop_finished _ _ _ _ _ _ _ _ _ _ _).mpr ⟨bs, c, by rw [← hx]; exact hloop, hw'⟩⟩

/-- C74, the runs are there: on every well-formed, uncut stream whose hits all have a time of flight and a 48-bit spider time,
with file names that do not collide, the program ends normally, with hit images when these are asked for. -/
theorem c74_ends_partial (o : ProgramOptions) (s : Settings) (solve : List GaussRow → F64 × F64)
    (cs : List Chunk) (hcs : cs ≠ []) (hw : ∀ k ∈ cs, k.WellFormed) (hn : ∀ k ∈ cs, k.NoLookAlike) (hn0 : 0 < o.chunkSize)
    (hcut : ∀ j, j * o.chunkSize < (streamBytes cs).length → ∃ k, j * o.chunkSize = (streamBytes (cs.take k)).length)
    (hd : ∀ x ∈ onePass o.mode ⟨0, 0, 0⟩ (tagged cs), x.tof ≠ none ∧ x.spidertime.toNat < 2 ^ 48)
    (hp1 : o.outHits ≠ o.input) (hp2 : o.outEvents ≠ o.input) (hp3 : o.outHits = o.outEvents → o.outHits = [])
    (him : o.needsImages = true → o.tofMode = "hit".toList ∧ ∃ sr es im, s.sr = .fin sr ∧ 0 ≤ sr ∧ sr ≤ 2 ^ 20 ∧
      s.edges = .ok es ∧ 2 ≤ es.length ∧ initImages (.fin sr) es = .ok im)
    (fuel : Nat) (hfuel : (streamBytes cs).length < fuel) :
    ∃ w, mainCore o s solve (fun _ => {}) fuel (streamBytes cs) = .ok (.finished w) := by
  refine main_ends o s solve cs hcs hw hn hn0 hcut hd hp1 hp2 hp3 fuel hfuel fun hni => ?_
  obtain ⟨hmode, sr, es, im, e1, e2, e3, e4, e5, e6⟩ := him hni
  refine ⟨es, im, e4, by rw [e1]; exact e6, fun bs c hrun hhits => ?_⟩
  rw [hmode, e1]
  refine c36_hits_defined sr e2 e3 es e5 bs im e6 ?_
  intro b hb h hh
  obtain ⟨⟨chip, ws, c0, -, he⟩, -⟩ := cliRun_batches _ _ _ _ _ _ hrun b hb
  have hm : h ∈ hitsOf bs := List.mem_flatMap.mpr ⟨b, hb, hh⟩
  rw [he] at hh
  obtain ⟨w, tdc, gdc, hw'⟩ := (runPackets_hits _ chip ws c0).2 h hh
  obtain ⟨r1, r2, -⟩ := hit_ranges _ h chip w tdc gdc hw'
  rw [hhits] at hm
  exact ⟨by omega, by omega, (hd h hm).1⟩

/-! ### The files written after the loop -/

/-- C74 for the image and spectrum files: when the program returns 0 without failures of the libraries, into a directory that
holds no image of this run yet, every image file holds the counts of its bin and every row of the spectrum file the upper edge of
its bin and the number of entries counted in it, all from the same batches as in `c74_agree_partial`. -/
theorem c74_files_partial (argv : List Arg) (conf : Path → Res Settings) (solve : List GaussRow → F64 × F64)
    (input : Path → Option Bytes) (o : ProgramOptions) (w : Outputs) (d d' : Dir)
    (h : MainReturnsZero argv conf solve input (fun _ => {}) o w d d') (s : Settings) (hs : conf o.configFile = .ok s)
    (sr : ℚ) (qs : List ℚ) (hsr : s.sr = .fin sr) (hed : s.edges = .ok (qs.map .fin)) (hinc : qs.Pairwise (· < ·))
    (hl : 2 ≤ qs.length) (hside : 0 < side sr) (hfresh : ∀ i t, d (tiffName o.outTof o.tofBase i) ≠ some (.tiff t)) :
    ∃ file fuel bs c, input o.input = some file ∧
      cliRun ⟨o.mode, s.params, solve⟩ o.chunkSize fuel file = .ok (some (bs, c)) ∧
      (o.outTof ≠ [] → ∀ i, i + 1 < qs.length → ∃ t, d' (tiffName o.outTof o.tofBase i) = some (.tiff t) ∧
        t.width = side sr ∧ t.height = side sr ∧ ∀ y x, y < side sr → x < side sr →
          (t.rows[y]?.bind fun r => r[x]?).map BitVec.toNat =
            some (counted sr qs (side sr) (entryList (String.ofList o.tofMode) bs) i y x % 2 ^ 32)) ∧
      (o.spectra ≠ [] → (entryList (String.ofList o.tofMode) bs).length < 2 ^ 32 →
        ∃ rows, d' (o.spectra ++ ".txt".toList) = some (.spectra rows) ∧ rows.length = qs.length - 1 ∧
          ∀ i q, qs[i + 1]? = some q → ∃ n, rows[i]? = some (.fin q, n) ∧
            n.toNat = countedIn sr qs (side sr) (entryList (String.ofList o.tofMode) bs) i) := by
  obtain ⟨s', file, fuel, -, hs', hin, hcore, d1, hd1, hd2⟩ := h
  rw [hs] at hs'
  injection hs' with hs'
  subst hs'
  obtain ⟨bs, c, es, im, hrun, him, hout⟩ := mainCore_batches o s solve _ fuel file w hcore
  obtain ⟨-, -, k3, -, -⟩ := outputBatches_clean o s.sr es 0 bs _ w hout
  refine ⟨file, fuel, bs, c, hin, hrun, ?_, ?_⟩
  · intro ho i hi
    have hni : o.needsImages = true := by
      unfold ProgramOptions.needsImages
      cases h : o.outTof with
      | nil => exact absurd h ho
      | cons a l => rfl
    obtain ⟨e1, e2⟩ := him hni
    rw [hed] at e1
    injection e1 with e1
    have k := k3 hni
    rw [← e1, hsr] at k e2
    have hpix := c35_counts_partial sr qs hinc hl _ bs im w.images e2 k
    obtain ⟨dd, hdim, hz⟩ := initImages_ok _ _ (by rw [List.length_map]; exact hl) im e2
    have hdd : dd = side sr := by have := dimOf_side sr dd hdim (by omega); omega
    rw [List.length_map] at hz
    have hsh := zeroStack_shaped _ _ _ hz
    have hne : qs.map F64.fin ≠ [] := by
      intro h0
      have := congrArg List.length h0
      rw [List.length_map, List.length_nil] at this
      omega
    obtain ⟨-, g⟩ := (updateAll_iff hsh (by omega) _ _ (by rw [List.length_map]; exact hl) hdim _ bs w.images).mp k
    have hsh' := addEntries_shaped hsh _ _ hne _ _ g
    rw [hdd] at hsh'
    rw [if_neg ho] at hd1
    obtain ⟨es', e3, hsave⟩ := hd1
    obtain ⟨t, t1, t2, t3, t4⟩ := c39_accumulates hside o.outTof o.tofBase es' [w.images] (by simp) (by simpa using hsh') d d1 hfresh
      (.cons hsave (.nil _)) i (by omega)
    refine ⟨t, ?_, t2, t3, ?_⟩
    · by_cases hsp : o.spectra = []
      · rw [if_pos hsp] at hd2
        rw [hd2]; exact t1
      · rw [if_neg hsp] at hd2
        obtain ⟨_, _, -, -, rfl⟩ := hd2
        rw [Function.update_of_ne, t1]
        unfold tiffName
        intro e
        have := congrArg List.getLast? e
        rw [List.getLast?_append_of_ne_nil _ (by simp), List.getLast?_append_of_ne_nil _ (by decide)] at this
        revert this
        decide
    · intro y x hy hx
      rw [t4 y x hy hx]
      simp only [stackSum, List.map_cons, List.map_nil, List.sum_cons, List.sum_nil, hpix, Nat.add_zero]
      rw [if_pos ⟨hi, hy, hx⟩, Option.getD_some, Nat.mod_mod]
  · intro ho hlt
    have hni : o.needsImages = true := by
      unfold ProgramOptions.needsImages
      cases h : o.spectra with
      | nil => exact absurd h ho
      | cons a l => simp
    obtain ⟨e1, e2⟩ := him hni
    rw [hed] at e1
    injection e1 with e1
    have k := k3 hni
    rw [← e1, hsr] at k e2
    obtain ⟨hlen, htot⟩ := c37_total sr qs hinc hl _ bs hlt im w.images e2 k
    rw [if_neg ho] at hd2
    obtain ⟨es', rows, e3, e4, rfl⟩ := hd2
    rw [hed] at e3
    injection e3 with e3
    subst e3
    unfold spectraRows at e4
    split_ifs at e4 with hbad
    injection e4 with e4
    subst e4
    refine ⟨_, Function.update_self _ _ _, ?_, ?_⟩
    · rw [List.length_zip, List.length_tail, List.length_map, hlen, Nat.min_self]
    · intro i q hq
      have hi : i + 1 < qs.length := (List.getElem?_eq_some_iff.mp hq).1
      have hc : i < (spectralCounts w.images).length := by omega
      refine ⟨(spectralCounts w.images)[i], ?_, htot i _ (List.getElem?_eq_getElem hc)⟩
      rw [List.getElem?_zip_eq_some]
      refine ⟨?_, List.getElem?_eq_getElem hc⟩
      rw [List.getElem?_tail, List.getElem?_map, hq]
      rfl

/-! ### Where the claim fails -/

/-- A stream with a trigger and one hit. -/
def oneHit : Bytes := streamBytes [⟨0x0010000033585054#64, [0x6F00000000005000#64, 0xB123400000A00009#64]⟩]

/-- `-i i -H h -E e`, chunks of a megabyte. -/
def hitsAndEvents : ProgramOptions := { input := "i".toList, outHits := "h".toList, outEvents := "e".toList, timing := "tdc".toList }

def plainSettings : Settings := ⟨⟨F64.ofRat 5, 1, 75⟩, F64.ofRat (1 / 100), .ok [.fin 0, .fin 1]⟩

/-- The loop ended normally with outputs that satisfy `P`. -/
def endsWith (P : Outputs → Prop) [DecidablePred P] (r : Res LoopEnd) : Bool := match r with
  | .ok (.finished w) => decide (P w)
  | _ => false

theorem finished_of {P : Outputs → Prop} [DecidablePred P] (r : Res LoopEnd) (h : endsWith P r = true) :
    ∃ w, r = .ok (.finished w) ∧ P w := by
  unfold endsWith at h
  split at h
  · rename_i w
    exact ⟨w, rfl, of_decide_eq_true h⟩
  · simp at h

/-- C74 is false when the extension of one column of the hits fails: the program ends normally, counts the hit and writes the
neutron, but the columns of the file of hits have different numbers of rows. -/
theorem c74_false_column : ∃ w, mainCore hitsAndEvents plainSettings (fun _ => (.nan, .nan))
        (fun _ => { hitColumn := fun i => if i = 1 then some .resize else none }) 2 oneHit = .ok (.finished w) ∧
      w.totalHits = 1#64 ∧ columnRows w.hits "hits".toList ['x'] = 1 ∧ columnRows w.hits "hits".toList ['y'] = 0 ∧
      columnRows w.events "neutrons".toList ['x'] = 1 :=
  finished_of (P := fun w => w.totalHits = 1#64 ∧ columnRows w.hits "hits".toList ['x'] = 1 ∧
    columnRows w.hits "hits".toList ['y'] = 0 ∧ columnRows w.events "neutrons".toList ['x'] = 1) _ (by decide +kernel)

/-- The loop was left by an exception that nothing catches, with outputs that satisfy `P`. -/
def terminatesWith (P : Outputs → Prop) [DecidablePred P] (r : Res LoopEnd) : Bool := match r with
  | .ok (.terminated w) => decide (P w)
  | _ => false

theorem terminated_of {P : Outputs → Prop} [DecidablePred P] (r : Res LoopEnd) (h : terminatesWith P r = true) :
    ∃ w, r = .ok (.terminated w) ∧ P w := by
  unfold terminatesWith at h
  split at h
  · rename_i w
    exact ⟨w, rfl, of_decide_eq_true h⟩
  · simp at h

/-- C74 is false when the extension of a column of the neutrons fails: the process is terminated by an exception of the library
that no handler names, the hit is in its file and one column of the neutron too, and no image is ever written. -/
theorem c74_false_terminated : ∃ w, mainCore hitsAndEvents plainSettings (fun _ => (.nan, .nan))
        (fun _ => { eventColumn := fun i => if i = 1 then some .resize else none }) 2 oneHit = .ok (.terminated w) ∧
      columnRows w.hits "hits".toList ['x'] = 1 ∧ columnRows w.events "neutrons".toList ['x'] = 1 ∧
      columnRows w.events "neutrons".toList ['y'] = 0 ∧ w.totalNeutrons = 0#64 :=
  terminated_of (P := fun w => columnRows w.hits "hits".toList ['x'] = 1 ∧ columnRows w.events "neutrons".toList ['x'] = 1 ∧
    columnRows w.events "neutrons".toList ['y'] = 0 ∧ w.totalNeutrons = 0#64) _ (by decide +kernel)

/-- C74 for a chunk size that wraps to zero (`c75_false_chunk_size`): for every non-empty file the program ends normally with
empty outputs. -/
theorem c74_false_zero_size (o : ProgramOptions) (s : Settings) (solve : List GaussRow → F64 × F64) (fl : Nat → BatchFaults)
    (file : Bytes) (hf : file ≠ []) (h0 : o.chunkSize = 0) (hi : o.needsImages = false) (hp1 : o.outHits ≠ o.input)
    (hp2 : o.outEvents ≠ o.input) (hp3 : o.outHits = o.outEvents → o.outHits = []) :
    mainCore o s solve fl 1 file = .ok (.finished ⟨[], [], [], 0, 0⟩) := by
  have hlen : file.length ≠ 0 := fun h => hf (List.length_eq_zero_iff.mp h)
  unfold mainCore Reader.open
  rw [if_neg hlen]
  simp only
  rw [if_neg (by rintro (h | h); exacts [hp1 h, hp2 h]), if_neg (fun h => h.1 (hp3 h.2)), if_neg (by rw [hi]; simp)]
  simp only
  rw [mainLoop_finished]
  refine ⟨[], Clock.zero, ?_, rfl⟩
  intro out
  obtain ⟨r1, -, -⟩ := readChunk_spec ⟨file, 0⟩ 0 (Nat.zero_le _)
  rw [cliLoop, h0]
  simp only
  rw [r1]
  simp

/-- The stream with one hit meets the hypotheses of `c74_agree_partial`, `c74_stream_partial` and `c74_ends_partial`; its hit and its
neutron are in the files. -/
example : ∃ w, mainCore hitsAndEvents plainSettings (fun _ => (.nan, .nan)) (fun _ => {}) 2 oneHit = .ok (.finished w) ∧
    w.totalHits = 1#64 ∧ w.totalNeutrons = 1#64 ∧
    column w.hits "hits".toList "toa_ns".toList = some [.fin 0] ∧ column w.events "neutrons".toList "nHits".toList = some [.fin 1] :=
  finished_of (P := fun w => w.totalHits = 1#64 ∧ w.totalNeutrons = 1#64 ∧
    column w.hits "hits".toList "toa_ns".toList = some [.fin 0] ∧
    column w.events "neutrons".toList "nHits".toList = some [.fin 1]) _ (by decide +kernel)

example : (onePass .tdc ⟨0, 0, 0⟩ (tagged [⟨0x0010000033585054#64, [0x6F00000000005000#64, 0xB123400000A00009#64]⟩])).length = 1 ∧
    ∀ j, j * hitsAndEvents.chunkSize < oneHit.length → ∃ k, j * hitsAndEvents.chunkSize =
      (streamBytes ([⟨0x0010000033585054#64, [0x6F00000000005000#64, 0xB123400000A00009#64]⟩].take k)).length := by
  refine ⟨by decide +kernel, fun j hj => ⟨0, ?_⟩⟩
  have h1 : oneHit.length = 24 := by decide
  have h2 : hitsAndEvents.chunkSize = 5368709120 := rfl
  rw [h1, h2] at hj
  have : j = 0 := by omega
  rw [this, Nat.zero_mul]
  rfl

/-- A run that returns 0 and writes a spectrum, as in `c74_files_partial`. -/
example : ∃ w d', MainReturnsZero ["-i".toList, "i".toList, "-Hh".toList, "-E".toList, "e".toList] (fun _ => .ok plainSettings)
    (fun _ => (.nan, .nan)) (fun p => if p = "i".toList then some oneHit else none) (fun _ => {}) hitsAndEvents w (fun _ => none) d' ∧
    d' "Spectra.txt".toList ≠ none := by
  obtain ⟨w, h1, h2⟩ := finished_of (P := fun w => (spectralCounts w.images).length = 1)
    (mainCore hitsAndEvents plainSettings (fun _ => (.nan, .nan)) (fun _ => {}) 2 oneHit) (by decide +kernel)
  have hrows : spectraRows [.fin 0, .fin 1] (spectralCounts w.images) = .ok ([F64.fin 1].zip (spectralCounts w.images)) := by
    unfold spectraRows
    rw [if_neg (by rw [h2]; simp)]
    rfl
  refine ⟨w, Function.update (fun _ => none) "Spectra.txt".toList (some (.spectra ([F64.fin 1].zip (spectralCounts w.images)))),
    ⟨plainSettings, oneHit, 2, by decide +kernel, rfl, by decide, h1, fun _ => none, ?_, ?_⟩, ?_⟩
  · rw [if_pos (by rfl)]
  · rw [if_neg (by decide)]
    exact ⟨_, _, rfl, hrows, rfl⟩
  · rw [Function.update_self]
    simp

end Verif.Props
