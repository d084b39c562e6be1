import Verif.Props.Detector
import Verif.Props.Arrival

/-!
# C99: the image and spectrum files count the true hits, or the true neutrons, of a detector
-/

namespace Verif.Props

open Verif Verif.Spec

/-! ### The command-line program -/

theorem entryList_trueHits (bs : List EventBatch) (H : List (List Hit)) (h : bs.map (fun b => b.batch.hits) = H) :
    entryList "hit" bs = H.flatten.filterMap hitEntry := by
  rw [← h, List.filterMap_flatten, List.map_map]
  unfold entryList
  rw [List.flatMap_def]
  simp only [if_pos]
  rfl

/-- The batches of a run over the file of a detector. -/
theorem detector_batches (x : CliCtx) (n : Nat) (hn0 : 0 < n) (rs : List Readout) (hrs : rs ≠ [])
    (hok : ∀ r ∈ rs, r.Ok) (htime : TimelyFile x.mode ⟨0, 0⟩ rs)
    (hcut : ∀ j, j * n < (detectorFile rs).length → ∃ k, j * n = (detectorFile (rs.take k)).length)
    (fuel : Nat) (bs : List EventBatch) (c : Clock) (h : cliRun x n fuel (detectorFile rs) = .ok (some (bs, c))) :
    bs.map (fun b => b.batch.hits) = trueReadouts (needsClock x.mode) ⟨0, 0⟩ rs := by
  obtain ⟨f1, f2, f3⟩ := file_streams hok htime
  rw [← f3]
  exact cliRun_chunks x n hn0 (rs.map Readout.chunk) (by simpa using hrs) f1 f2
    (by intro j hj; obtain ⟨k, hk⟩ := hcut j hj; exact ⟨k, by rw [hk, detectorFile, List.map_take]⟩) fuel bs c h

/-- C99, hits: the program given the file of a detector, which the reader does not cut, returns 0 with images of hits in a directory
without images of this run: every pixel of every image file is the number of true hits there and then, and every row of the spectrum
file the upper edge of its bin and the number of true hits in it. -/
theorem c99_hits_partial (argv : List Arg) (conf : Path → Res Settings) (solve : List GaussRow → F64 × F64)
    (input : Path → Option Bytes) (o : ProgramOptions) (w : Outputs) (d d' : Dir)
    (h : MainReturnsZero argv conf solve input (fun _ => {}) o w d d') (s : Settings) (hs : conf o.configFile = .ok s)
    (sr : ℚ) (qs : List ℚ) (hsr : s.sr = .fin sr) (hed : s.edges = .ok (qs.map .fin)) (hinc : qs.Pairwise (· < ·))
    (hl : 2 ≤ qs.length) (hside : 0 < side sr) (hfresh : ∀ i t, d (tiffName o.outTof o.tofBase i) ≠ some (.tiff t))
    (rs : List Readout) (hrs : rs ≠ []) (hok : ∀ r ∈ rs, r.Ok) (htime : TimelyFile o.mode ⟨0, 0⟩ rs) (hn0 : 0 < o.chunkSize)
    (hcut : ∀ j, j * o.chunkSize < (detectorFile rs).length → ∃ k, j * o.chunkSize = (detectorFile (rs.take k)).length)
    (hin : input o.input = some (detectorFile rs)) (hmode : o.tofMode = "hit".toList) :
    (o.outTof ≠ [] → ∀ i y x, i + 1 < qs.length → y < side sr → x < side sr →
      filePixel (d' (tiffName o.outTof o.tofBase i)) y x = some (counted sr qs (side sr)
        ((trueReadouts (needsClock o.mode) ⟨0, 0⟩ rs).flatten.filterMap hitEntry) i y x % 2 ^ 32)) ∧
    (o.spectra ≠ [] → (trueReadouts (needsClock o.mode) ⟨0, 0⟩ rs).flatten.length < 2 ^ 32 →
      ∃ rows, d' (o.spectra ++ ".txt".toList) = some (.spectra rows) ∧ rows.length = qs.length - 1 ∧
        ∀ i q, qs[i + 1]? = some q → ∃ n, rows[i]? = some (.fin q, n) ∧ n.toNat = countedIn sr qs (side sr)
          ((trueReadouts (needsClock o.mode) ⟨0, 0⟩ rs).flatten.filterMap hitEntry) i) := by
  obtain ⟨file, fuel, bs, c, h1, h2, h3, h4⟩ :=
    c74_files_partial argv conf solve input o w d d' h s hs sr qs hsr hed hinc hl hside hfresh
  rw [hin] at h1
  injection h1 with h1
  subst h1
  have hch := detector_batches ⟨o.mode, s.params, solve⟩ _ hn0 rs hrs hok htime hcut fuel bs c h2
  have he := entryList_trueHits bs _ hch
  rw [hmode, String.ofList_toList, he] at h3 h4
  refine ⟨?_, ?_⟩
  · intro ho i y x hi hy hx
    obtain ⟨t, t1, -, -, t2⟩ := h3 ho i hi
    rw [t1]
    exact t2 y x hy hx
  · intro ho hlt
    exact h4 ho (lt_of_le_of_lt (List.length_filterMap_le ..) hlt)

/-- C99, neutrons: the same with images of neutrons, for an assignment of the hits to neutrons that can be recovered: the pixels and
rows count the visible neutrons, each at the mean position of its hits, weighted with the time over threshold, and at their mean time
of flight. -/
theorem c99_neutrons_partial (argv : List Arg) (conf : Path → Res Settings) (solve : List GaussRow → F64 × F64)
    (input : Path → Option Bytes) (o : ProgramOptions) (w : Outputs) (d d' : Dir)
    (h : MainReturnsZero argv conf solve input (fun _ => {}) o w d d') (s : Settings) (hs : conf o.configFile = .ok s)
    (sr : ℚ) (qs : List ℚ) (hsr : s.sr = .fin sr) (hed : s.edges = .ok (qs.map .fin)) (hinc : qs.Pairwise (· < ·))
    (hl : 2 ≤ qs.length) (hside : 0 < side sr) (hfresh : ∀ i t, d (tiffName o.outTof o.tofBase i) ≠ some (.tiff t))
    (rs : List Readout) (hrs : rs ≠ []) (hok : ∀ r ∈ rs, r.Ok) (htime : TimelyFile o.mode ⟨0, 0⟩ rs) (hn0 : 0 < o.chunkSize)
    (hcut : ∀ j, j * o.chunkSize < (detectorFile rs).length → ∃ k, j * o.chunkSize = (detectorFile (rs.take k)).length)
    (hin : input o.input = some (detectorFile rs)) (hmode : o.tofMode ≠ "hit".toList)
    (r : ℚ) (hp : s.params.feature = .fin r) (hr : |r| ≤ 2 ^ 20) (hrange : s.params.range < 2 ^ 64)
    (ht : o.mode = .tdc → ∀ hs ∈ trueReadouts false ⟨0, 0⟩ rs, ∀ x ∈ hs, ∃ t, x.tof = some t ∧ t.toNat < 2 ^ 22)
    (neutron : List (List Int))
    (hres : List.Forall₂ (Resolved s.params.range r) (trueReadouts (needsClock o.mode) ⟨0, 0⟩ rs) neutron) :
    ∃ es : List Neutron,
      List.Forall₂ (IsEventOf 1)
        (List.zipWith (visible s.params.minSize) (trueReadouts (needsClock o.mode) ⟨0, 0⟩ rs) neutron).flatten es ∧
      (o.outTof ≠ [] → ∀ i y x, i + 1 < qs.length → y < side sr → x < side sr →
        filePixel (d' (tiffName o.outTof o.tofBase i)) y x =
          some (counted sr qs (side sr) (es.map eventEntry) i y x % 2 ^ 32)) ∧
      (o.spectra ≠ [] → es.length < 2 ^ 32 →
        ∃ rows, d' (o.spectra ++ ".txt".toList) = some (.spectra rows) ∧ rows.length = qs.length - 1 ∧
          ∀ i q, qs[i + 1]? = some q → ∃ n, rows[i]? = some (.fin q, n) ∧
            n.toNat = countedIn sr qs (side sr) (es.map eventEntry) i) := by
  obtain ⟨file, fuel, bs, c, h1, h2, h3, h4⟩ :=
    c74_files_partial argv conf solve input o w d d' h s hs sr qs hsr hed hinc hl hside hfresh
  rw [hin] at h1
  injection h1 with h1
  subst h1
  have hch := detector_batches ⟨o.mode, s.params, solve⟩ _ hn0 rs hrs hok htime hcut fuel bs c h2
  have hm : String.ofList o.tofMode ≠ "hit" := by
    intro e
    apply hmode
    rw [← e, String.toList_ofList]
  have he : entryList (String.ofList o.tofMode) bs = (neutronsOf bs).map eventEntry := entryList_neutrons _ hm bs
  rw [he] at h3 h4
  refine ⟨neutronsOf bs, ?_, ?_, ?_⟩
  · refine neutrons_of_run ⟨o.mode, s.params, solve⟩ _ _ _ bs c h2 _ hch r hp hr hrange ?_ ?_ neutron hres
    · intro hg
      change o.mode = .gdc at hg
      rw [hg] at htime ⊢
      exact trueReadouts_earlyG rs _ (by norm_num) htime
    · intro hg
      change o.mode = .tdc at hg
      rw [hg]
      exact ht hg
  · intro ho i y x hi hy hx
    obtain ⟨t, t1, -, -, t2⟩ := h3 ho i hi
    rw [t1]
    exact t2 y x hy hx
  · intro ho hlt
    exact h4 ho (by simpa using hlt)

/-! ### The automatic reducer -/

/-- The chunks announced in a stream are its chunks. -/
theorem announced_packets (l ws : List U64) (h : ∀ w ∈ l, ¬ StartsTPX w) : announced (l ++ ws) = announced ws := by
  induction l with
  | nil => rfl
  | cons w l ih =>
    rw [List.cons_append, announced, if_neg (h w (by simp))]
    exact ih fun w' h' => h w' (by simp [h'])

theorem announced_stream (cs : List Chunk) (hw : ∀ k ∈ cs, k.WellFormed) (hn : ∀ k ∈ cs, k.NoLookAlike) :
    announced (streamWords cs) = cs := by
  induction cs with
  | nil => rfl
  | cons k cs ih =>
    obtain ⟨h1, h2⟩ := hw k (by simp)
    have e : streamWords (k :: cs) = k.header :: (k.packets ++ streamWords cs) := rfl
    rw [e, announced, if_pos h1, h2, Nat.mul_div_cancel_left _ (by norm_num), List.take_left,
      announced_packets _ _ (hn k (by simp)), ih (fun k' h' => hw k' (by simp [h'])) (fun k' h' => hn k' (by simp [h']))]

/-- The hits of the file of a detector on its own are the true hits. -/
theorem hitsOfFile_detector {rs : List Readout} (hok : ∀ r ∈ rs, r.Ok) (h : TimelyFile .gdc ⟨0, 0⟩ rs) :
    hitsOfFile (detectorFile rs) = trueReadouts true ⟨0, 0⟩ rs := by
  obtain ⟨f1, f2, f3⟩ := file_streams hok h
  unfold hitsOfFile detectorFile
  rw [wordsOf_streamBytes, announced_stream _ f1 f2]
  exact f3

theorem packets_split (sigs : List Signal) (hok : ∀ s ∈ sigs, SignalOk s) (a : List U64) (h : U64) (b : List U64)
    (e : sigs.flatMap Signal.packets = a ++ h :: b) (hh : IsHitPacket h) :
    ∃ A t col row tot ftoa B, sigs = A ++ .pixel t col row tot ftoa :: B ∧ A.flatMap Signal.packets = a := by
  induction sigs generalizing a with
  | nil => simp at e
  | cons s ss ih =>
    have ih' := ih (fun s' h' => hok s' (by simp [h']))
    rw [List.flatMap_cons] at e
    cases s with
    | trigger t =>
      rw [packets_trigger, List.singleton_append] at e
      cases a with
      | nil =>
        injection e with e1 _
        subst e1
        exact absurd hh (triggerWord_fields t).2.1
      | cons w a =>
        injection e with e1 e2
        obtain ⟨A, t', c, r, q, f, B, h1, h2⟩ := ih' a e2
        exact ⟨.trigger t :: A, t', c, r, q, f, B, by rw [h1]; rfl, by rw [List.flatMap_cons, packets_trigger, h2, e1]; rfl⟩
    | clock t =>
      rw [packets_clock] at e
      match a, e with
      | [], e =>
        injection e with e1 _
        subst e1
        exact absurd hh (clockLow_fields t).2.2.1
      | [_], e =>
        injection e with _ e
        injection e with e1 _
        subst e1
        exact absurd hh (clockHigh_fields t).2.2.1
      | w :: w' :: a, e =>
        injection e with e1 e
        injection e with e2 e
        obtain ⟨A, t', c, r, q, f, B, h1, h2⟩ := ih' a e
        exact ⟨.clock t :: A, t', c, r, q, f, B, by rw [h1]; rfl, by rw [List.flatMap_cons, packets_clock, h2, e1, e2]; rfl⟩
    | pixel t c r q f =>
      rw [packets_pixel, List.singleton_append] at e
      cases a with
      | nil => exact ⟨[], t, c, r, q, f, ss, rfl, rfl⟩
      | cons w a =>
        injection e with e1 e2
        obtain ⟨A, t', c', r', q', f', B, h1, h2⟩ := ih' a e2
        exact ⟨.pixel t c r q f :: A, t', c', r', q', f', B, by rw [h1]; rfl,
          by rw [List.flatMap_cons, packets_pixel, h2, e1]; rfl⟩

theorem timelyG_mem {p : Past} {sigs : List Signal} (h : AllTimelyG p sigs) (g : Nat) (hg : Signal.clock g ∈ sigs) :
    0 < g ∧ g < 2 ^ 48 - 2 ^ 30 := by
  induction sigs generalizing p with
  | nil => simp at hg
  | cons s ss ih =>
    rcases List.mem_cons.mp hg with rfl | hg
    · exact h.1
    · exact ih h.2 hg

/-- The file of a detector in which every pixel comes after a clock and a trigger dates its hits. -/
theorem selfDated_detector {rs : List Readout} (hok : ∀ r ∈ rs, r.Ok) (h : TimelyFile .gdc ⟨0, 0⟩ rs)
    (hd : Dated (rs.flatMap Readout.signals)) : SelfDated (detectorFile rs) := by
  obtain ⟨f1, f2, -⟩ := file_streams hok h
  have hp : filePackets (detectorFile rs) = (rs.flatMap Readout.signals).flatMap Signal.packets := by
    unfold filePackets detectorFile
    rw [wordsOf_streamBytes, announced_stream _ f1 f2, List.flatMap_map, List.flatMap_assoc]
    rfl
  intro a w b e hw
  rw [hp] at e
  obtain ⟨A, t, c, r, q, f, B, h1, h2⟩ := packets_split _ (signalOk_of_timelyG h) a w b e hw
  obtain ⟨A1, g, A2, T, A3, hA⟩ := hd A t c r q f B h1
  have hg := timelyG_mem h g (by rw [h1, hA]; simp)
  refine ⟨A1.flatMap Signal.packets, clockLow g, [], clockHigh g, A2.flatMap Signal.packets, triggerWord T,
    A3.flatMap Signal.packets, ?_, ?_, by simp, ?_, ?_, (triggerWord_fields T).1⟩
  · rw [← h2, hA, List.flatMap_append, List.flatMap_cons, List.flatMap_append, List.flatMap_cons, packets_clock, packets_trigger]
    rfl
  · exact ⟨(clockLow_fields g).1, (clockLow_fields g).2.2.2.1⟩
  · exact ⟨(clockHigh_fields g).1, (clockHigh_fields g).2.2.2.1⟩
  · rw [(clockLow_fields g).2.2.2.2, (clockHigh_fields g).2.2.2.2]
    omega

/-! ### A run of the detector in several files -/

theorem startsDated_timely {rs : List Readout} (h : StartsDated rs) {p : Past} (ht : TimelyFile .gdc p rs) (p' : Past) :
    TimelyFile .gdc p' rs := by
  obtain ⟨chip, g, T, rest, rs', rfl⟩ := h
  simp only [TimelyFile, List.flatMap_cons, List.cons_append, AllTimelyG] at ht ⊢
  exact ht

theorem startsDated_hits {rs : List Readout} (h : StartsDated rs) (b : Bool) (p p' : Past) :
    trueReadouts b p rs = trueReadouts b p' rs := by
  obtain ⟨chip, g, T, rest, rs', rfl⟩ := h
  simp only [trueReadouts, trueHits, Signal.hit, List.foldl_cons, Past.after]

theorem startsDated_dated {rs : List Readout} (h : StartsDated rs) : Dated (rs.flatMap Readout.signals) := by
  obtain ⟨chip, g, T, rest, rs', rfl⟩ := h
  intro a t c r q f b e
  rw [List.flatMap_cons] at e
  match a, e with
  | [], e => simp at e
  | [_], e => simp at e
  | s :: s' :: a, e =>
    injection e with e1 e
    injection e with e2 e
    exact ⟨[], g, [], T, a, by rw [← e1, ← e2]; rfl⟩

theorem trueReadouts_append (b : Bool) (p : Past) (l l' : List Readout) :
    trueReadouts b p (l ++ l') = trueReadouts b p l ++ trueReadouts b ((l.flatMap Readout.signals).foldl Past.after p) l' := by
  induction l generalizing p with
  | nil => rfl
  | cons r l ih => rw [List.cons_append, trueReadouts, trueReadouts, ih, List.flatMap_cons, List.foldl_append, List.cons_append]

/-- The true hits of a run in parts that start with a clock and a trigger. -/
theorem trueReadouts_parts (b : Bool) (parts : List (List Readout)) (hd : ∀ rs ∈ parts, StartsDated rs) (p p' : Past) :
    trueReadouts b p parts.flatten = parts.flatMap (trueReadouts b p') := by
  induction parts generalizing p with
  | nil => rfl
  | cons rs parts ih =>
    rw [List.flatten_cons, trueReadouts_append, List.flatMap_cons, ih (fun r h => hd r (by simp [h])),
      startsDated_hits (hd rs (by simp)) b p p']

theorem timely_parts (parts : List (List Readout)) (hd : ∀ rs ∈ parts, StartsDated rs) (p : Past)
    (h : TimelyFile .gdc p parts.flatten) (p' : Past) : ∀ rs ∈ parts, TimelyFile .gdc p' rs := by
  induction parts generalizing p with
  | nil => simp
  | cons rs parts ih =>
    unfold TimelyFile at h
    simp only [List.flatten_cons, List.flatMap_append] at h
    obtain ⟨h1, h2⟩ := allTimelyG_append.mp h
    intro rs' hr
    rcases List.mem_cons.mp hr with rfl | hr
    · exact startsDated_timely (hd _ (by simp)) (p := p) h1 p'
    · exact ih (fun r h => hd r (by simp [h])) _ h2 rs' hr

/-- What is needed of a run in parts: every file holds the true hits of its part and dates them. -/
theorem parts_files (parts : List (List Readout)) (hd : ∀ rs ∈ parts, StartsDated rs) (hok : ∀ rs ∈ parts, ∀ r ∈ rs, r.Ok)
    (h : TimelyFile .gdc ⟨0, 0⟩ parts.flatten) : ∀ rs ∈ parts, SelfDated (detectorFile rs) ∧
      hitsOfFile (detectorFile rs) = trueReadouts true ⟨0, 0⟩ rs ∧
      ∀ hs ∈ trueReadouts true ⟨0, 0⟩ rs, ∀ x ∈ hs, x.spidertime.toNat < 2 ^ 48 := by
  intro rs hr
  have ht := timely_parts parts hd _ h ⟨0, 0⟩ rs hr
  exact ⟨selfDated_detector (hok rs hr) ht (startsDated_dated (hd rs hr)), hitsOfFile_detector (hok rs hr) ht,
    trueReadouts_earlyG rs _ (by norm_num) ht⟩

theorem counted_perm {sr : ℚ} {qs : List ℚ} {d : Nat} {a b : List Entry} (h : a.Perm b) (i y z : Nat) :
    counted sr qs d a i y z = counted sr qs d b i y z := h.countP_eq _

/-- C99, automatic reducer, hits: a run of the detector is stored in files that each start with a clock and a trigger.  Once the reducer
has processed them all, in whatever order and polls it found them, every pixel of the image files is the number of true hits of
the run there and then. -/
theorem c99_reducer_hits_partial (x : RedCtx) (sr : ℚ) (qs : List ℚ) (k : Nat) (hsr : x.sr = .fin sr) (hqs : x.edges = qs.map .fin)
    (hs : qs.Pairwise (· < ·)) (hl : 2 ≤ qs.length) (hd : dimOf x.sr = .ok k) (hk : 0 < k) (hmode : x.tofMode = "hit")
    (d : Dir) (h0 : ∀ i t, d (tiffName x.out x.base i) ≠ some (.tiff t))
    (polls : List (List DirEntry × List DirEntry)) (s : RedState) (st : RedStatus) (h : MonRun x polls (RedState.init d) s st)
    (parts : List (List Readout)) (hne : parts ≠ []) (hdated : ∀ rs ∈ parts, StartsDated rs)
    (hok : ∀ rs ∈ parts, ∀ r ∈ rs, r.Ok) (htime : TimelyFile .gdc ⟨0, 0⟩ parts.flatten)
    (hall : ((doneFiles s.log).map Prod.snd).Perm (parts.map detectorFile))
    (i y z : Nat) (hi : i + 1 < qs.length) (hy : y < k) (hz : z < k) :
    filePixel (s.dir (tiffName x.out x.base i)) y z = some (counted sr qs (side sr)
      ((trueReadouts true ⟨0, 0⟩ parts.flatten).flatten.filterMap hitEntry) i y z % 2 ^ 32) := by
  have hf := parts_files parts hdated hok htime
  have hne' : doneFiles s.log ≠ [] := by
    intro e
    rw [e] at hall
    have := hall.length_eq
    simp only [List.map_nil, List.length_nil, List.length_map] at this
    exact hne (List.length_eq_zero_iff.mp this.symm)
  have hself : ∀ f ∈ doneFiles s.log, SelfDated f.2 := by
    intro f hfm
    have := hall.mem_iff.mp (List.mem_map_of_mem (f := Prod.snd) hfm)
    obtain ⟨rs, h1, h2⟩ := List.mem_map.mp this
    rw [← h2]
    exact (hf rs h1).1
  rw [c98_hits_partial x sr qs k hsr hqs hs hl hd hk hmode d h0 polls s st h hne' hself i y z hi hy hz]
  congr 2
  apply counted_perm
  have e1 : ((doneFiles s.log).flatMap fun f => (hitsOfFile f.2).flatten.filterMap hitEntry) =
      ((doneFiles s.log).map Prod.snd).flatMap fun b => (hitsOfFile b).flatten.filterMap hitEntry := by
    rw [List.flatMap_map]
  rw [e1]
  refine (hall.flatMap_right _).trans (.of_eq ?_)
  rw [trueReadouts_parts true parts hdated ⟨0, 0⟩ ⟨0, 0⟩, List.flatMap_map]
  clear hall hne hne' hself e1 htime
  induction parts with
  | nil => rfl
  | cons rs parts ih =>
    rw [List.flatMap_cons, List.flatMap_cons, List.flatten_append, List.filterMap_append,
      ih (fun r h => hdated r (by simp [h])) (fun r h => hok r (by simp [h])) (fun r h => hf r (by simp [h])),
      (hf rs (by simp)).2.1]

/-- C99, automatic reducer, neutrons: the same with images of neutrons, if the hits of every readout come from neutrons that can be
recovered (`neutron` gives their numbers): the pixels count the visible neutrons. -/
theorem c99_reducer_neutrons_partial (x : RedCtx) (sr : ℚ) (qs : List ℚ) (k : Nat) (hsr : x.sr = .fin sr) (hqs : x.edges = qs.map .fin)
    (hs : qs.Pairwise (· < ·)) (hl : 2 ≤ qs.length) (hd : dimOf x.sr = .ok k) (hk : 0 < k) (hmode : x.tofMode ≠ "hit")
    (r : ℚ) (hp : x.params.feature = .fin r) (hr : |r| ≤ 2 ^ 20) (hrange : x.params.range < 2 ^ 64)
    (d : Dir) (h0 : ∀ i t, d (tiffName x.out x.base i) ≠ some (.tiff t))
    (polls : List (List DirEntry × List DirEntry)) (s : RedState) (st : RedStatus) (h : MonRun x polls (RedState.init d) s st)
    (parts : List (List Readout)) (hne : parts ≠ []) (hdated : ∀ rs ∈ parts, StartsDated rs)
    (hok : ∀ rs ∈ parts, ∀ r ∈ rs, r.Ok) (htime : TimelyFile .gdc ⟨0, 0⟩ parts.flatten)
    (hall : ((doneFiles s.log).map Prod.snd).Perm (parts.map detectorFile))
    (neutron : List Hit → List Int)
    (hres : ∀ hs ∈ trueReadouts true ⟨0, 0⟩ parts.flatten, Resolved x.params.range r hs (neutron hs)) :
    ∃ es : List Neutron,
      List.Forall₂ (IsEventOf 1)
        ((trueReadouts true ⟨0, 0⟩ parts.flatten).flatMap fun hs => visible x.params.minSize hs (neutron hs)) es ∧
      ∀ i y z, i + 1 < qs.length → y < k → z < k → filePixel (s.dir (tiffName x.out x.base i)) y z =
        some (counted sr qs (side sr) (es.map eventEntry) i y z % 2 ^ 32) := by
  have hf := parts_files parts hdated hok htime
  have hne' : doneFiles s.log ≠ [] := by
    intro e
    rw [e] at hall
    have := hall.length_eq
    simp only [List.map_nil, List.length_nil, List.length_map] at this
    exact hne (List.length_eq_zero_iff.mp this.symm)
  have hmem : ∀ f ∈ doneFiles s.log, ∃ rs ∈ parts, detectorFile rs = f.2 := by
    intro f hfm
    have := hall.mem_iff.mp (List.mem_map_of_mem (f := Prod.snd) hfm)
    obtain ⟨rs, h1, h2⟩ := List.mem_map.mp this
    exact ⟨rs, h1, h2⟩
  rw [trueReadouts_parts true parts hdated ⟨0, 0⟩ ⟨0, 0⟩] at hres ⊢
  obtain ⟨es, e1, e2⟩ := c98_neutrons_partial x sr qs k hsr hqs hs hl hd hk hmode r hp hr hrange d h0 polls s st h hne'
    (fun f hfm => by obtain ⟨rs, h1, h2⟩ := hmem f hfm; rw [← h2]; exact (hf rs h1).1)
    (fun f hfm => by obtain ⟨rs, h1, h2⟩ := hmem f hfm; rw [← h2, (hf rs h1).2.1]; exact (hf rs h1).2.2)
    (fun b => (hitsOfFile b).map neutron)
    (fun f hfm => by
      obtain ⟨rs, h1, h2⟩ := hmem f hfm
      rw [← h2, (hf rs h1).2.1, List.forall₂_map_right_iff, List.forall₂_same]
      exact fun hs hh => hres hs (List.mem_flatMap.mpr ⟨rs, h1, hh⟩))
  have hperm : (((doneFiles s.log).flatMap fun f =>
        (List.zipWith (visible x.params.minSize) (hitsOfFile f.2) ((hitsOfFile f.2).map neutron)).flatten)).Perm
      ((parts.flatMap (trueReadouts true ⟨0, 0⟩)).flatMap fun hs => visible x.params.minSize hs (neutron hs)) := by
    have g1 : ((doneFiles s.log).flatMap fun f =>
        (List.zipWith (visible x.params.minSize) (hitsOfFile f.2) ((hitsOfFile f.2).map neutron)).flatten) =
        ((doneFiles s.log).map Prod.snd).flatMap fun b =>
          (hitsOfFile b).flatMap fun hs => visible x.params.minSize hs (neutron hs) := by
      rw [List.flatMap_map]
      congr 1
      funext f
      rw [List.flatMap_def, List.zipWith_map_right, List.zipWith_self]
    rw [g1]
    refine (hall.flatMap_right _).trans (.of_eq ?_)
    rw [List.flatMap_map, List.flatMap_assoc]
    clear hall hne hne' hmem e1 e2 g1 htime hres
    induction parts with
    | nil => rfl
    | cons rs parts ih =>
      rw [List.flatMap_cons, List.flatMap_cons,
        ih (fun r h => hdated r (by simp [h])) (fun r h => hok r (by simp [h])) (fun r h => hf r (by simp [h])),
        (hf rs (by simp)).2.1]
  obtain ⟨es', p1, p2⟩ := List.perm_comp_forall₂ hperm.symm e1
  refine ⟨es', p1, ?_⟩
  intro i y z hi hy hz
  rw [e2 i y z hi hy hz, counted_perm (p2.map eventEntry)]

/-! ### Examples, and files that do not start with a clock -/

/-- Four pixels, two bins. -/
def exImageSettings : Settings := ⟨⟨.fin 5, 1, 75⟩, .fin (1 / 256), .ok ([0, 1 / 2 ^ 17, 1].map .fin)⟩

def exImageOptions (mode : List Char) : ProgramOptions := { input := "i".toList, outTof := "o".toList, tofMode := mode }

theorem side_exImage : side (1 / 256) = 2 := by decide +kernel

/-- Two chips, two neutrons on each. -/
def exShot : List Readout :=
  [⟨0, [.clock 20000000, .trigger 20000100, .pixel 20000200 10 20 5 1, .pixel 20000201 100 20 7 2, .pixel 20000202 11 20 6 3,
      .pixel 20000201 100 21 8 4]⟩,
   ⟨1, [.pixel 20000900 200 200 5 1, .pixel 20000900 240 200 6 0, .pixel 20000901 200 201 5 1, .pixel 20000902 241 200 6 0]⟩]

example (m : Mode) : exShot ≠ [] ∧ (∀ r ∈ exShot, r.Ok) ∧ TimelyFile m ⟨0, 0⟩ exShot ∧
    List.Forall₂ (Resolved 75 5) (trueReadouts (needsClock m) ⟨0, 0⟩ exShot) [[0, 1, 0, 1], [0, 1, 0, 1]] ∧
    (∀ hs ∈ trueReadouts false ⟨0, 0⟩ exShot, ∀ x ∈ hs, ∃ t, x.tof = some t ∧ t.toNat < 2 ^ 22) ∧
    (detectorFile exShot).length ≤ hitsAndEvents.chunkSize := by
  refine ⟨by decide, ?_, ?_, ?_, ?_, by decide +kernel⟩
  · intro r hr
    simp only [exShot, List.mem_cons, List.not_mem_nil, or_false] at hr
    rcases hr with rfl | rfl
    · exact ⟨by decide, by decide +kernel, by decide +kernel⟩
    · exact ⟨by decide, by decide +kernel, by decide +kernel⟩
  · cases m <;> norm_num [TimelyFile, exShot, AllTimelyG, AllTimelyT, Signal.TimelyG, Signal.TimelyT, Past.after, PixelOk]
  · cases m <;> exact .cons (resolved_of (by decide +kernel)) (.cons (resolved_of (by decide +kernel)) .nil)
  · have h : ∀ hs ∈ trueReadouts false ⟨0, 0⟩ exShot, ∀ x ∈ hs, x.tof ≠ none ∧ (x.tof.getD 0).toNat < 2 ^ 22 := by
      decide +kernel
    intro hs hh x hx
    obtain ⟨h1, h2⟩ := h hs hh x hx
    obtain ⟨t, ht⟩ := Option.ne_none_iff_exists'.mp h1
    rw [ht] at h2
    exact ⟨t, ht, h2⟩

/-- Runs that meet the hypotheses of `c99_hits_partial` and of `c99_neutrons_partial`. -/
example : ∃ w d', MainReturnsZero ["-ii".toList, "-To".toList, "-mhit".toList] (fun _ => .ok exImageSettings) (fun _ => (.nan, .nan))
    (fun _ => some (detectorFile exShot)) (fun _ => {}) (exImageOptions "hit".toList) w (fun _ => none) d' ∧
    w.images = [[[0#32, 4#32], [0#32, 0#32]], [[0#32, 0#32], [0#32, 4#32]]] := by
  obtain ⟨w, h1, h2⟩ := finished_of (P := fun w => w.images = [[[0#32, 4#32], [0#32, 0#32]], [[0#32, 0#32], [0#32, 4#32]]])
    (mainCore (exImageOptions "hit".toList) exImageSettings (fun _ => (.nan, .nan)) (fun _ => {}) 2 (detectorFile exShot))
    (by decide +kernel)
  have hsh : Shaped 2 2 w.images := by rw [h2]; exact ⟨rfl, by simp, by simp⟩
  obtain ⟨d1, hd1⟩ := saveRun_exists (n := 2) (d := 2) (by decide) "o".toList "tof_image".toList ([0, 1 / 2 ^ 17, 1].map F64.fin) w.images hsh
    rfl (fun _ => none)
  have hrows : spectraRows ([0, 1 / 2 ^ 17, 1].map F64.fin) (spectralCounts w.images) =
      .ok (([0, 1 / 2 ^ 17, 1].map F64.fin).tail.zip (spectralCounts w.images)) := by rw [h2]; rfl
  refine ⟨w, Function.update d1 "Spectra.txt".toList (some (.spectra (([0, 1 / 2 ^ 17, 1].map F64.fin).tail.zip (spectralCounts w.images)))),
    ⟨exImageSettings, _, 2, by decide +kernel, rfl, rfl, h1, d1, ?_, ?_⟩, h2⟩
  · rw [if_neg (by decide)]
    exact ⟨_, rfl, hd1⟩
  · rw [if_neg (by decide)]
    exact ⟨_, _, rfl, hrows, rfl⟩

example : ∃ w d', MainReturnsZero ["-ii".toList, "-To".toList] (fun _ => .ok exImageSettings) (fun _ => (.nan, .nan))
    (fun _ => some (detectorFile exShot)) (fun _ => {}) (exImageOptions "neutron".toList) w (fun _ => none) d' ∧
    w.images = [[[0#32, 2#32], [0#32, 0#32]], [[0#32, 0#32], [0#32, 2#32]]] := by
  obtain ⟨w, h1, h2⟩ := finished_of (P := fun w => w.images = [[[0#32, 2#32], [0#32, 0#32]], [[0#32, 0#32], [0#32, 2#32]]])
    (mainCore (exImageOptions "neutron".toList) exImageSettings (fun _ => (.nan, .nan)) (fun _ => {}) 2 (detectorFile exShot))
    (by decide +kernel)
  have hsh : Shaped 2 2 w.images := by rw [h2]; exact ⟨rfl, by simp, by simp⟩
  obtain ⟨d1, hd1⟩ := saveRun_exists (n := 2) (d := 2) (by decide) "o".toList "tof_image".toList ([0, 1 / 2 ^ 17, 1].map F64.fin) w.images hsh
    rfl (fun _ => none)
  have hrows : spectraRows ([0, 1 / 2 ^ 17, 1].map F64.fin) (spectralCounts w.images) =
      .ok (([0, 1 / 2 ^ 17, 1].map F64.fin).tail.zip (spectralCounts w.images)) := by rw [h2]; rfl
  refine ⟨w, Function.update d1 "Spectra.txt".toList (some (.spectra (([0, 1 / 2 ^ 17, 1].map F64.fin).tail.zip (spectralCounts w.images)))),
    ⟨exImageSettings, _, 2, by decide +kernel, rfl, rfl, h1, d1, ?_, ?_⟩, h2⟩
  · rw [if_neg (by decide)]
    exact ⟨_, rfl, hd1⟩
  · rw [if_neg (by decide)]
    exact ⟨_, _, rfl, hrows, rfl⟩

/-- A run in two files, and one whose second file does not start with a clock. -/
def exPartA : List Readout := [⟨0, [.clock 1000, .trigger 2000, .pixel 2100 10 20 5 1]⟩, ⟨1, [.pixel 2200 210 220 5 1]⟩]
def exPartB : List Readout := [⟨0, [.clock 3000, .trigger 4000, .pixel 4100 10 20 5 1]⟩]
def exPartC : List Readout := [⟨0, [.pixel 2300 10 20 5 1]⟩]

def exFileA : DirEntry := ⟨"a.tpx3".toList, true, some (detectorFile exPartA)⟩
def exFileB : DirEntry := ⟨"b.tpx3".toList, true, some (detectorFile exPartB)⟩
def exFileC : DirEntry := ⟨"c.tpx3".toList, true, some (detectorFile exPartC)⟩

/-- The timestamps after a file. -/
def exAfter (l : List Readout) (c : Clock) : Clock :=
  match exRed.images (detectorFile l) c with
  | .ok v => v.2
  | _ => c

theorem exRed_B : exRed.images (detectorFile exPartB) Clock.zero = .ok ([[[0#32, 1#32], [0#32, 0#32]]], exAfter exPartB Clock.zero) := by
  decide +kernel
theorem exRed_A : exRed.images (detectorFile exPartA) (exAfter exPartB Clock.zero) =
    .ok ([[[0#32, 1#32], [0#32, 1#32]]], exAfter exPartA (exAfter exPartB Clock.zero)) := by decide +kernel
theorem exRed_A0 : exRed.images (detectorFile exPartA) Clock.zero =
    .ok ([[[0#32, 1#32], [0#32, 1#32]]], exAfter exPartA Clock.zero) := by decide +kernel
theorem exRed_C : exRed.images (detectorFile exPartC) Clock.zero = .ok ([[[0#32, 0#32], [0#32, 0#32]]], exAfter exPartC Clock.zero) := by
  decide +kernel

theorem exShaped2 (v w : U32) : Shaped 1 2 [[[0#32, v], [0#32, w]]] := ⟨rfl, by simp, by simp⟩

/-- A run of the reducer that meets the hypotheses of `c99_reducer_hits_partial`: the second file is found first. -/
example : ∃ s, MonRun exRed [([], [exFileB, exFileA])] (RedState.init fun _ => none) s .running ∧
    ((doneFiles s.log).map Prod.snd).Perm ([exPartA, exPartB].map detectorFile) ∧
    (∀ rs ∈ [exPartA, exPartB], StartsDated rs) ∧ (∀ rs ∈ [exPartA, exPartB], ∀ r ∈ rs, r.Ok) ∧
    TimelyFile .gdc ⟨0, 0⟩ [exPartA, exPartB].flatten ∧
    (trueReadouts true ⟨0, 0⟩ [exPartA, exPartB].flatten).flatten.length = 3 ∧
    filePixel (s.dir (tiffName exRed.out exRed.base 0)) 0 1 = some 2 := by
  have ha : exFileA.isRaw = true := by decide
  have hb : exFileB.isRaw = true := by decide
  have hab : exFileA.stem ≠ exFileB.stem := by decide
  obtain ⟨d1, q1⟩ := saveRun_exists (n := 1) (d := 2) (by decide) exRed.out exRed.base exRed.edges [[[0#32, 1#32], [0#32, 0#32]]] (exShaped _) rfl (fun _ => none)
  obtain ⟨d2, q2⟩ := saveRun_exists (n := 1) (d := 2) (by decide) exRed.out exRed.base exRed.edges [[[0#32, 1#32], [0#32, 1#32]]] (exShaped2 _ _) rfl d1
  have r1 : MonRun exRed [([], [exFileB, exFileA])] (RedState.init fun _ => none) _ .running :=
    .round rfl (.done hb (by simp [RedState.init]) rfl exRed_B q1 (.done ha (by simpa [RedState.init] using hab) rfl exRed_A q2 .nil))
      .running
  refine ⟨_, r1, ?_, ?_, ?_, ?_, by decide +kernel, ?_⟩
  · exact .swap _ _ _
  · intro rs hr
    simp only [List.mem_cons, List.not_mem_nil, or_false] at hr
    rcases hr with rfl | rfl
    · exact ⟨_, _, _, _, _, rfl⟩
    · exact ⟨_, _, _, _, _, rfl⟩
  · have : ∀ rs ∈ [exPartA, exPartB], ∀ r ∈ rs, r.chip < 4 ∧ r.packets.length < 2 ^ 13 ∧ ∀ s ∈ r.signals, ¬ s.Disguised := by
      decide +kernel
    exact fun rs hr r h => ⟨(this rs hr r h).1, (this rs hr r h).2.1, (this rs hr r h).2.2⟩
  · norm_num [TimelyFile, exPartA, exPartB, AllTimelyG, Signal.TimelyG, Past.after, PixelOk]
  · obtain ⟨t, a1, -, -, a2⟩ := c47_counts exRed 1 2 rfl (by decide) exRed_dim (by decide) _ (by simp) _ _ _ r1
      (by simp [RedState.init, successes]) 0 (by decide)
    rw [a1]
    exact a2 0 1 (by decide) (by decide)

/-- C99 is false for files that do not start with a clock and a trigger: the run has three hits, two of them at pixel (0, 1); the file with the
last of them is found in a poll of its own and its hit is lost. -/
theorem c99_false_undated :
    ∃ s, MonRun exRed [([], [exFileA]), ([], [exFileA, exFileC])] (RedState.init fun _ => none) s .running ∧
      (doneFiles s.log).map Prod.snd = [exPartA, exPartC].map detectorFile ∧
      TimelyFile .gdc ⟨0, 0⟩ [exPartA, exPartC].flatten ∧
      (trueReadouts true ⟨0, 0⟩ [exPartA, exPartC].flatten).flatten.map (fun h => (h.x, h.y)) = [(270, 20), (305, 295), (270, 20)] ∧
      filePixel (s.dir (tiffName exRed.out exRed.base 0)) 0 1 = some 1 := by
  have ha : exFileA.isRaw = true := by decide
  have hc : exFileC.isRaw = true := by decide
  have hac : exFileC.stem ≠ exFileA.stem := by decide
  obtain ⟨d1, q1⟩ := saveRun_exists (n := 1) (d := 2) (by decide) exRed.out exRed.base exRed.edges [[[0#32, 1#32], [0#32, 1#32]]] (exShaped2 _ _) rfl (fun _ => none)
  obtain ⟨d2, q2⟩ := saveRun_exists (n := 1) (d := 2) (by decide) exRed.out exRed.base exRed.edges [[[0#32, 0#32], [0#32, 0#32]]] (exShaped _) rfl d1
  have r1 : MonRun exRed [([], [exFileA]), ([], [exFileA, exFileC])] (RedState.init fun _ => none) _ .running :=
    .round rfl (.done ha (by simp [RedState.init]) rfl exRed_A0 q1 .nil)
      (.round rfl (.skip ha (by simp [RedState.init]) (.done hc (by simpa [RedState.init] using hac) rfl exRed_C q2 .nil)) .running)
  refine ⟨_, r1, rfl, ?_, by decide +kernel, ?_⟩
  · norm_num [TimelyFile, exPartA, exPartC, AllTimelyG, Signal.TimelyG, Past.after, PixelOk]
  · obtain ⟨t, a1, -, -, a2⟩ := c47_counts exRed 1 2 rfl (by decide) exRed_dim (by decide) _ (by simp) _ _ _ r1
      (by simp [RedState.init, successes]) 0 (by decide)
    rw [a1]
    exact a2 0 1 (by decide) (by decide)

end Verif.Props
