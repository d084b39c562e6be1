import Verif.Props.AnyRun
import Verif.Props.AbsCalls

/-!
# C124: every output depends on its own settings only
-/

namespace Verif.Props

open Verif Verif.Spec

/-- Hits of the batches from number `k` on, appended one batch after the other, with the failures of a run. -/
def hitFold (fl : Nat → BatchFaults) : Nat → List (List Hit) → H5 → Res H5
  | _, [], f => .ok f
  | k, hs :: rest, f => match appendHits (fl k).hitGroup (fl k).hitColumn hs f with
    | .ok f' => hitFold fl (k + 1) rest f'
    | r => r

/-- The same for neutrons. -/
def eventFold (fl : Nat → BatchFaults) : Nat → List (List Neutron) → H5 → Res (H5 × Bool)
  | _, [], f => .ok (f, false)
  | k, ns :: rest, f => match appendNeutrons (fl k).eventGroup (fl k).eventColumn ns f with
    | .ok (f', false) => eventFold fl (k + 1) rest f'
    | r => r

theorem output_folds (o : ProgramOptions) (sr : F64) (es : List F64) (fl : Nat → BatchFaults) (k : Nat) (bs : List EventBatch) (w w' : Outputs)
    (h : outputBatches o sr es fl k bs w = .ok (w', .normal)) :
    (o.outHits ≠ [] → hitFold fl k (bs.map fun b => b.batch.hits) w.hits = .ok w'.hits) ∧ (o.outHits = [] → w'.hits = w.hits) ∧
    (o.outEvents ≠ [] → eventFold fl k (bs.map fun b => b.neutrons) w.events = .ok (w'.events, false)) ∧
    (o.outEvents = [] → w'.events = w.events) ∧
    (o.needsImages = true → updateAll sr es (String.ofList o.tofMode) w.images bs = .ok w'.images) ∧
    (o.needsImages = false → w'.images = w.images) ∧
    w'.totalHits = w.totalHits + BitVec.ofNat 64 (bs.flatMap fun b => b.batch.hits).length ∧
    w'.totalNeutrons = w.totalNeutrons + BitVec.ofNat 64 (bs.flatMap fun b => b.neutrons).length := by
  induction bs generalizing k w with
  | nil =>
    simp only [outputBatches, Res.ok.injEq, Prod.mk.injEq, and_true] at h
    subst h
    refine ⟨fun _ => rfl, fun _ => rfl, fun _ => rfl, fun _ => rfl, fun _ => rfl, fun _ => rfl, ?_, ?_⟩ <;> simp
  | cons b bs ih =>
    rw [outputBatches] at h
    split at h
    · rename_i w1 h1
      obtain ⟨i1, j1, i2, j2, i3, j3, i4, i5⟩ := ih _ _ h
      unfold outputBatch at h1
      split at h1
      · simp at h1
      · simp at h1
      · rename_i hh hh1
        split at h1
        · simp at h1
        · simp at h1
        · simp at h1
        · rename_i he he1
          split at h1
          · simp at h1
          · simp at h1
          · rename_i im him
            simp only [Res.ok.injEq, Prod.mk.injEq, and_true] at h1
            subst h1
            simp only at i1 i2 i3 i4 i5 j1 j2 j3
            refine ⟨?_, ?_, ?_, ?_, ?_, ?_, ?_, ?_⟩
            · intro ho
              rw [if_neg ho] at hh1
              rw [List.map_cons, hitFold, hh1]
              exact i1 ho
            · intro ho
              rw [if_pos ho, Res.ok.injEq] at hh1
              rw [j1 ho, hh1]
            · intro ho
              rw [if_neg ho] at he1
              rw [List.map_cons, eventFold, he1]
              exact i2 ho
            · intro ho
              rw [if_pos ho, Res.ok.injEq, Prod.mk.injEq] at he1
              rw [j2 ho, he1.1]
            · intro ho
              rw [if_pos ho] at him
              rw [updateAll, him]
              exact i3 ho
            · intro ho
              rw [if_neg (by simp [ho]), Res.ok.injEq] at him
              rw [j3 ho, him]
            · rw [i4, List.flatMap_cons, List.length_append, BitVec.ofNat_add, BitVec.add_assoc]
            · rw [i5, List.flatMap_cons, List.length_append, BitVec.ofNat_add, BitVec.add_assoc]
    · rename_i h1
      exact absurd h (h1 w')

/-! ## The batches of a run -/

theorem one_solve (m : Mode) (buf : Bytes) (p : AbsParams) (solve solve' : List GaussRow → F64 × F64) (b : EventBatch) :
    ProcCtx.one ⟨m, buf, p, solve⟩ b = ProcCtx.one ⟨m, buf, p, solve'⟩ b := by
  unfold ProcCtx.one
  cases extractHits m buf b.batch with
  | ub u => rfl
  | throws e => rfl
  | ok b' =>
    show ((AbsObj.new p).fit b'.hits).bind _ = ((AbsObj.new p).fit b'.hits).bind _
    cases hf : (AbsObj.new p).fit b'.hits with
    | ub u => rfl
    | throws e => rfl
    | ok alg =>
      show (alg.getEvents solve b'.hits).bind _ = (alg.getEvents solve' b'.hits).bind _
      have e : alg.getEvents solve b'.hits = alg.getEvents solve' b'.hits := by
        unfold AbsObj.getEvents
        rw [fit_method hf]
        rfl
      rw [e]

theorem oneAll_solve (m : Mode) (buf : Bytes) (p : AbsParams) (solve solve' : List GaussRow → F64 × F64) (bs : List EventBatch) :
    oneAll ⟨m, buf, p, solve⟩ bs = oneAll ⟨m, buf, p, solve'⟩ bs := by
  induction bs with
  | nil => rfl
  | cons b bs ih => rw [oneAll, oneAll, ih, one_solve m buf p solve solve']

theorem cliRun_solve (m : Mode) (p : AbsParams) (solve solve' : List GaussRow → F64 × F64) (n fuel : Nat) (file : Bytes) :
    cliRun ⟨m, p, solve⟩ n fuel file = cliRun ⟨m, p, solve'⟩ n fuel file := by
  have hc : ∀ buf c, chunkEvents ⟨m, p, solve⟩ buf c = chunkEvents ⟨m, p, solve'⟩ buf c := by
    intro buf c
    unfold chunkEvents
    simp only [oneAll_solve m buf p solve solve']
  have hl : ∀ fuel r c out, cliLoop ⟨m, p, solve⟩ n fuel r c out = cliLoop ⟨m, p, solve'⟩ n fuel r c out := by
    intro fuel
    induction fuel with
    | zero => intros; rfl
    | succ fuel ih =>
      intro r c out
      rw [cliLoop, cliLoop]
      simp only [hc, ih]
  unfold cliRun
  simp only [hl]

/-- A run with chunks of size 0 has no batches. -/
theorem cliRun_zero (x : CliCtx) (fuel : Nat) (file : Bytes) (v : List EventBatch × Clock) (h : cliRun x 0 fuel file = .ok (some v)) :
    v.1 = [] := by
  unfold cliRun at h
  split at h
  · rename_i r hr
    cases fuel with
    | zero => simp [cliLoop] at h
    | succ fuel =>
      rw [cliLoop] at h
      split_ifs at h with h1
      · rw [Res.ok.injEq, Option.some.injEq] at h
        rw [← h]
      · have e : (r.readChunk 0).1 = [] := by
          unfold Reader.readChunk
          split_ifs <;> simp
        simp only [e, if_true] at h
        rw [Res.ok.injEq, Option.some.injEq] at h
        rw [← h]
  · cases h
  · cases h

theorem same_hits (x x' : CliCtx) (hm : x.mode = x'.mode) (n fuel fuel' : Nat) (file : Bytes) (bs bs' : List EventBatch) (c c' : Clock)
    (h : cliRun x n fuel file = .ok (some (bs, c))) (h' : cliRun x' n fuel' file = .ok (some (bs', c'))) :
    (bs.map fun b => b.batch.hits) = bs'.map fun b => b.batch.hits := by
  rcases Nat.eq_zero_or_pos n with rfl | hn
  · rw [show bs = [] from cliRun_zero _ _ _ _ h, show bs' = [] from cliRun_zero _ _ _ _ h']
  · rw [(c94_hits x n hn file fuel bs c h).2.1, (c94_hits x' n hn file fuel' bs' c' h').2.1, hm]

theorem same_batches (m : Mode) (p : AbsParams) (solve solve' : List GaussRow → F64 × F64) (n fuel fuel' : Nat) (file : Bytes)
    (bs bs' : List EventBatch) (c c' : Clock) (h : cliRun ⟨m, p, solve⟩ n fuel file = .ok (some (bs, c)))
    (h' : cliRun ⟨m, p, solve'⟩ n fuel' file = .ok (some (bs', c'))) : bs = bs' ∧ c = c' := by
  rw [← cliRun_solve m p solve solve'] at h'
  have h1 := cliRun_mono _ n fuel fuel' _ _ h
  have h2 := cliRun_mono _ n fuel' fuel _ _ h'
  rw [Nat.add_comm fuel', h1, Res.ok.injEq, Option.some.injEq, Prod.mk.injEq] at h2
  exact h2

theorem hitFold_same (fl fl' : Nat → BatchFaults) (hf : ∀ k, (fl k).hitGroup = (fl' k).hitGroup ∧ (fl k).hitColumn = (fl' k).hitColumn)
    (k : Nat) (hs : List (List Hit)) (f : H5) : hitFold fl k hs f = hitFold fl' k hs f := by
  induction hs generalizing k f with
  | nil => rfl
  | cons a hs ih => simp only [hitFold, (hf k).1, (hf k).2, ih]

theorem eventFold_same (fl fl' : Nat → BatchFaults) (hf : ∀ k, (fl k).eventGroup = (fl' k).eventGroup ∧ (fl k).eventColumn = (fl' k).eventColumn)
    (k : Nat) (ns : List (List Neutron)) (f : H5) : eventFold fl k ns f = eventFold fl' k ns f := by
  induction ns generalizing k f with
  | nil => rfl
  | cons a hs ih => simp only [eventFold, (hf k).1, (hf k).2, ih]

/-- C124 for the hits: the file of hits and the number of hits depend on the bytes, on the time reference and on the chunk size (and on
failures in writing them); not on the clustering, the fit, the images or the other files. -/
theorem c124_hits (o o' : ProgramOptions) (s s' : Settings) (solve solve' : List GaussRow → F64 × F64) (fl fl' : Nat → BatchFaults)
    (fuel fuel' : Nat) (file : Bytes) (w w' : Outputs) (h : mainCore o s solve fl fuel file = .ok (.finished w))
    (h' : mainCore o' s' solve' fl' fuel' file = .ok (.finished w')) (hm : o.mode = o'.mode) (hn : o.chunkSize = o'.chunkSize) :
    w.totalHits = w'.totalHits ∧
    (o.outHits ≠ [] → o'.outHits ≠ [] → (∀ k, (fl k).hitGroup = (fl' k).hitGroup ∧ (fl k).hitColumn = (fl' k).hitColumn) →
      w.hits = w'.hits) := by
  obtain ⟨bs, c, es, im, hr, -, ho⟩ := mainCore_batches o s solve fl fuel file w h
  obtain ⟨bs', c', es', im', hr', -, ho'⟩ := mainCore_batches o' s' solve' fl' fuel' file w' h'
  rw [← hn] at hr'
  have hs := same_hits ⟨o.mode, s.params, solve⟩ ⟨o'.mode, s'.params, solve'⟩ hm _ _ _ _ _ _ _ _ hr hr'
  obtain ⟨a1, -, -, -, -, -, a2, -⟩ := output_folds _ _ _ _ _ _ _ _ ho
  obtain ⟨b1, -, -, -, -, -, b2, -⟩ := output_folds _ _ _ _ _ _ _ _ ho'
  constructor
  · rw [a2, b2, List.flatMap_def, List.flatMap_def, hs]
  · intro h1 h2 hf
    have e := a1 h1
    rw [hs, hitFold_same fl fl' hf] at e
    have e' := b1 h2
    simp only at e e'
    rw [e, Res.ok.injEq] at e'
    exact e'

/-- C124 for the neutrons: as for the hits, and on the settings of the clustering; not on the settings of the images, and not on the
solver of the Gaussian fit, which the program never uses. -/
theorem c124_events (o o' : ProgramOptions) (s s' : Settings) (solve solve' : List GaussRow → F64 × F64) (fl fl' : Nat → BatchFaults)
    (fuel fuel' : Nat) (file : Bytes) (w w' : Outputs) (h : mainCore o s solve fl fuel file = .ok (.finished w))
    (h' : mainCore o' s' solve' fl' fuel' file = .ok (.finished w')) (hm : o.mode = o'.mode) (hn : o.chunkSize = o'.chunkSize)
    (hp : s.params = s'.params) :
    w.totalNeutrons = w'.totalNeutrons ∧
    (o.outEvents ≠ [] → o'.outEvents ≠ [] → (∀ k, (fl k).eventGroup = (fl' k).eventGroup ∧ (fl k).eventColumn = (fl' k).eventColumn) →
      w.events = w'.events) := by
  obtain ⟨bs, c, es, im, hr, -, ho⟩ := mainCore_batches o s solve fl fuel file w h
  obtain ⟨bs', c', es', im', hr', -, ho'⟩ := mainCore_batches o' s' solve' fl' fuel' file w' h'
  rw [← hn, ← hm, ← hp] at hr'
  obtain ⟨rfl, -⟩ := same_batches _ _ _ _ _ _ _ _ _ _ _ _ hr hr'
  obtain ⟨-, -, a1, -, -, -, -, a2⟩ := output_folds _ _ _ _ _ _ _ _ ho
  obtain ⟨-, -, b1, -, -, -, -, b2⟩ := output_folds _ _ _ _ _ _ _ _ ho'
  constructor
  · rw [a2, b2]
  · intro h1 h2 hf
    have e := a1 h1
    rw [eventFold_same fl fl' hf] at e
    have e' := b1 h2
    simp only at e e'
    rw [e, Res.ok.injEq, Prod.mk.injEq] at e'
    exact e'.1

theorem updateAll_hits (sr : F64) (es : List F64) (im : Stack) (bs bs' : List EventBatch)
    (h : (bs.map fun b => b.batch.hits) = bs'.map fun b => b.batch.hits) : updateAll sr es "hit" im bs = updateAll sr es "hit" im bs' := by
  induction bs generalizing bs' im with
  | nil =>
    cases bs' with
    | nil => rfl
    | cons _ _ => simp at h
  | cons b bs ih =>
    cases bs' with
    | nil => simp at h
    | cons b' bs' =>
      rw [List.map_cons, List.map_cons, List.cons.injEq] at h
      rw [updateAll, updateAll]
      have e : updateImages sr es "hit" im b = updateImages sr es "hit" im b' := by
        unfold updateImages entriesOf
        simp only [h.1, if_true]
      rw [e]
      cases updateImages sr es "hit" im b' with
      | ub u => rfl
      | throws m => rfl
      | ok im' => exact ih im' bs' h.2

/-- C124 for the images: they depend on their own settings and on what they count.  Images of the hits do not depend on the clustering; no
image depends on failures in writing the files of hits and neutrons, or on the names of files. -/
theorem c124_images (o o' : ProgramOptions) (s s' : Settings) (solve solve' : List GaussRow → F64 × F64) (fl fl' : Nat → BatchFaults)
    (fuel fuel' : Nat) (file : Bytes) (w w' : Outputs) (h : mainCore o s solve fl fuel file = .ok (.finished w))
    (h' : mainCore o' s' solve' fl' fuel' file = .ok (.finished w')) (hm : o.mode = o'.mode) (hn : o.chunkSize = o'.chunkSize)
    (hi : o.needsImages = true) (hi' : o'.needsImages = true) (ht : o.tofMode = o'.tofMode) (hsr : s.sr = s'.sr) (he : s.edges = s'.edges)
    (hp : o.tofMode = "hit".toList ∨ s.params = s'.params) : w.images = w'.images := by
  obtain ⟨bs, c, es, im, hr, e1, ho⟩ := mainCore_batches o s solve fl fuel file w h
  obtain ⟨bs', c', es', im', hr', e2, ho'⟩ := mainCore_batches o' s' solve' fl' fuel' file w' h'
  obtain ⟨e1, f1⟩ := e1 hi
  obtain ⟨e2, f2⟩ := e2 hi'
  rw [← he, e1, Res.ok.injEq] at e2
  subst e2
  rw [← hsr, f1, Res.ok.injEq] at f2
  subst f2
  obtain ⟨-, -, -, -, a1, -, -, -⟩ := output_folds _ _ _ _ _ _ _ _ ho
  obtain ⟨-, -, -, -, b1, -, -, -⟩ := output_folds _ _ _ _ _ _ _ _ ho'
  have a := a1 hi
  have b := b1 hi'
  simp only at a b
  rw [← ht, ← hsr] at b
  rw [← hn] at hr'
  rcases hp with hp | hp
  · have hs := same_hits ⟨o.mode, s.params, solve⟩ ⟨o'.mode, s'.params, solve'⟩ hm _ _ _ _ _ _ _ _ hr hr'
    rw [hp, show String.ofList "hit".toList = "hit" from by simp] at a b
    rw [updateAll_hits _ _ _ _ _ hs, b, Res.ok.injEq] at a
    exact a.symm
  · rw [← hm, ← hp] at hr'
    obtain ⟨rfl, -⟩ := same_batches _ _ _ _ _ _ _ _ _ _ _ _ hr hr'
    rw [b, Res.ok.injEq] at a
    exact a.symm

/-- C124: what was not asked for is not written. -/
theorem c124_unasked (o : ProgramOptions) (s : Settings) (solve : List GaussRow → F64 × F64) (fl : Nat → BatchFaults)
    (fuel : Nat) (file : Bytes) (w : Outputs) (h : mainCore o s solve fl fuel file = .ok (.finished w)) :
    (o.outHits = [] → w.hits = []) ∧ (o.outEvents = [] → w.events = []) := by
  obtain ⟨bs, c, es, im, hr, e1, ho⟩ := mainCore_batches o s solve fl fuel file w h
  obtain ⟨-, a1, -, a2, -, -, -, -⟩ := output_folds _ _ _ _ _ _ _ _ ho
  exact ⟨a1, a2⟩

/-- The options with no file of hits. -/
def eventsOnly : ProgramOptions := { hitsAndEvents with outHits := [] }

/-- C124 is false for runs that fail: with a file of hits that cannot be written the process is terminated and the neutrons, which can
be written, are not; without that file they are. -/
theorem c124_false_failure : (∃ w, mainCore hitsAndEvents plainSettings (fun _ => (.nan, .nan)) (fun _ => { hitGroup := some .create }) 2 oneHit =
        .ok (.terminated w) ∧ columnRows w.events "neutrons".toList ['x'] = 0) ∧
    ∃ w, mainCore eventsOnly plainSettings (fun _ => (.nan, .nan)) (fun _ => { hitGroup := some .create }) 2 oneHit = .ok (.finished w) ∧
      columnRows w.events "neutrons".toList ['x'] = 1 :=
  ⟨terminated_of (P := fun w => columnRows w.events "neutrons".toList ['x'] = 0) _ (by decide +kernel),
    finished_of (P := fun w => columnRows w.events "neutrons".toList ['x'] = 1) _ (by decide +kernel)⟩

/-- Clusters of at least two hits. -/
def pairSettings : Settings := { plainSettings with params := ⟨F64.ofRat 5, 2, 75⟩ }

/-- C124 is false for undefined behaviour: a hit whose time of flight was never set does no harm until the file of hits is asked for. -/
theorem c124_false_defined : (∃ w, mainCore eventsOnly pairSettings (fun _ => (.nan, .nan)) (fun _ => {}) 2 hitBeforeTrigger = .ok (.finished w)) ∧
    ∃ fuel u, mainCore hitsAndEvents pairSettings (fun _ => (.nan, .nan)) (fun _ => {}) fuel hitBeforeTrigger = .ub u := by
  constructor
  · obtain ⟨w, h, -⟩ := finished_of (P := fun w => w.totalNeutrons = 0) (mainCore eventsOnly pairSettings (fun _ => (.nan, .nan)) (fun _ => {}) 2
      hitBeforeTrigger) (by decide +kernel)
    exact ⟨w, h⟩
  · rw [c94_undefined_iff hitsAndEvents pairSettings ⟨by decide, by decide, by decide, by decide, fun _ => plain_images⟩ _ _
      (by decide +kernel) (by decide) (.inl (by decide))]
    right
    unfold Misdated
    decide +kernel

/-- Runs that meet the assumptions of `c124_hits`: other clustering, no file of events, and another file of hits. -/
example : ∃ w w', mainCore hitsAndEvents plainSettings (fun _ => (.nan, .nan)) (fun _ => {}) 2 oneHit = .ok (.finished w) ∧
    mainCore { hitsAndEvents with outHits := "g".toList, outEvents := [] } pairSettings (fun _ => (.inf true, .nan)) (fun _ => {}) 3 oneHit =
      .ok (.finished w') ∧ w.totalHits = 1 ∧ w'.totalHits = 1 := by
  obtain ⟨w, h, g⟩ := finished_of (P := fun w => w.totalHits = 1) (mainCore hitsAndEvents plainSettings (fun _ => (.nan, .nan)) (fun _ => {}) 2
      oneHit) (by decide +kernel)
  obtain ⟨w', h', g'⟩ := finished_of (P := fun w => w.totalHits = 1) (mainCore { hitsAndEvents with outHits := "g".toList, outEvents := [] }
    pairSettings (fun _ => (.inf true, .nan)) (fun _ => {}) 3 oneHit) (by decide +kernel)
  exact ⟨w, w', h, h', g, g'⟩

/-- Runs that meet the assumptions of `c124_images` and `c124_events`: images of the neutrons, with and without the files. -/
example : ∃ w w', mainCore { hitsAndEvents with outTof := "d".toList, tofMode := "neutron".toList } plainSettings (fun _ => (.nan, .nan)) (fun _ => {})
      2 oneHit = .ok (.finished w) ∧
    mainCore { eventsOnly with spectra := "s".toList, tofMode := "neutron".toList } plainSettings (fun _ => (.inf true, .nan))
      (fun _ => { hitGroup := some .create }) 3 oneHit = .ok (.finished w') ∧ w.totalNeutrons = 1 ∧ w'.images ≠ [] := by
  obtain ⟨w, h, g⟩ := finished_of (P := fun w => w.totalNeutrons = 1) (mainCore { hitsAndEvents with outTof := "d".toList, tofMode := "neutron".toList }
    plainSettings (fun _ => (.nan, .nan)) (fun _ => {}) 2 oneHit) (by decide +kernel)
  obtain ⟨w', h', g'⟩ := finished_of (P := fun w => w.images ≠ []) (mainCore { eventsOnly with spectra := "s".toList, tofMode := "neutron".toList }
    plainSettings (fun _ => (.inf true, .nan)) (fun _ => { hitGroup := some .create }) 3 oneHit) (by decide +kernel)
  exact ⟨w, w', h, h', g, g'⟩

end Verif.Props
