import Verif.Spec.FromText
import Verif.Props.CommandLine
import Verif.Props.JsonText
import Verif.Props.DetectorImages
import Verif.Props.Binning

/-!
# C108: from the words of the command line, the text of the configuration and the signals of a detector to the files
-/

namespace Verif.Props

open Verif Verif.Spec

/-! ## The images can be counted -/

/-- Positions up to 1025 and a moderate super resolution convert. -/
theorem toPixel_position (sr : ℚ) (h0 : 0 ≤ sr) (h1 : sr ≤ 2 ^ 20) (v : ℚ) (hv0 : 0 ≤ v) (hv1 : v ≤ 1025) :
    ∃ k, toPixel (.fin sr) (.fin v) = .ok k := by
  have hp0 : 0 ≤ v * sr := mul_nonneg hv0 h0
  have hp1 : v * sr ≤ ((1025 * 2 ^ 20 : ℤ) : ℚ) := by
    calc v * sr ≤ 1025 * 2 ^ 20 := mul_le_mul hv1 h1 h0 (by norm_num)
      _ = ((1025 * 2 ^ 20 : ℤ) : ℚ) := by norm_num
  have hr1 : rndQ (v * sr) ≤ ((1025 * 2 ^ 20 : ℤ) : ℚ) := by
    have := rndQ_mono hp1
    rwa [rndQ_int (by norm_num)] at this
  have hr0 := rndQ_nonneg hp0
  have hv : F64.ofRat (v * sr) = .fin (rndQ (v * sr)) := by
    apply F64.ofRat_eq_fin
    rw [abs_of_nonneg hr0]
    refine lt_of_le_of_lt hr1 ?_
    calc (((1025 * 2 ^ 20 : ℤ)) : ℚ) < 2 ^ (31 : ℤ) := by norm_num
      _ < 2 ^ (1024 : ℤ) := zpow_lt_zpow_right₀ (by norm_num) (by norm_num)
  unfold toPixel
  simp only [F64.mul]
  rw [hv]
  simp only [F64.round, F64.toI32?, truncQ_int]
  rw [if_pos hr0]
  have b0 : 0 ≤ ⌊rndQ (v * sr) + 1 / 2⌋ := Int.floor_nonneg.mpr (by linarith)
  have b1 : ⌊rndQ (v * sr) + 1 / 2⌋ < 1025 * 2 ^ 20 + 1 := by
    rw [Int.floor_lt]
    push_cast at hr1 ⊢
    linarith
  rw [if_pos (by omega)]
  exact ⟨_, rfl⟩

theorem dimOf_moderate (sr : ℚ) (h0 : 0 ≤ sr) (h1 : sr ≤ 2 ^ 20) : dimOf (.fin sr) = .ok (side sr) := by
  have hp0 : 0 ≤ 517 * sr := mul_nonneg (by norm_num) h0
  have hp1 : 517 * sr ≤ ((517 * 2 ^ 20 : ℤ) : ℚ) := by push_cast; linarith
  have hr1 : rndQ (517 * sr) ≤ ((517 * 2 ^ 20 : ℤ) : ℚ) := by
    have := rndQ_mono hp1
    rwa [rndQ_int (by norm_num)] at this
  have hr0 := rndQ_nonneg hp0
  have hv : F64.ofRat (517 * sr) = .fin (rndQ (517 * sr)) := by
    apply F64.ofRat_eq_fin
    rw [abs_of_nonneg hr0]
    refine lt_of_le_of_lt hr1 ?_
    calc (((517 * 2 ^ 20 : ℤ)) : ℚ) < 2 ^ (31 : ℤ) := by norm_num
      _ < 2 ^ (1024 : ℤ) := zpow_lt_zpow_right₀ (by norm_num) (by norm_num)
  have h517 : F64.ofRat 517 = .fin 517 := by simpa using F64.ofRat_int (n := 517) (by norm_num)
  have b0 : 0 ≤ ⌊rndQ (517 * sr)⌋ := Int.floor_nonneg.mpr hr0
  have b1 : ⌊rndQ (517 * sr)⌋ < 517 * 2 ^ 20 + 1 := by
    rw [Int.floor_lt]
    push_cast at hr1 ⊢
    linarith
  unfold dimOf
  rw [h517]
  simp only [F64.mul]
  rw [hv]
  simp only [F64.toI32?, F64.truncQ, if_pos hr0]
  rw [if_pos (by omega)]
  simp only [side]
  rw [Int.toNat_of_nonneg b0]

theorem initImages_moderate (sr : ℚ) (h0 : 0 ≤ sr) (h1 : sr ≤ 2 ^ 20) (edges : List F64) (hl : 2 ≤ edges.length) :
    ∃ im, initImages (.fin sr) edges = .ok im ∧ Shaped (edges.length - 1) (side sr) im := by
  have hne : edges ≠ [] := by rintro rfl; simp at hl
  have hz : ∃ im, zeroStack (edges.length - 1) (side sr) = .ok im := by
    unfold zeroStack
    rw [if_neg (by omega), if_neg (by omega)]
    exact ⟨_, rfl⟩
  obtain ⟨im, hz⟩ := hz
  refine ⟨im, ?_, zeroStack_shaped _ _ _ hz⟩
  unfold initImages
  rw [dimOf_moderate sr h0 h1]
  simp only [bind, Res.bind]
  rw [if_neg hne, hz]

theorem totMean_bounds (f : Hit → ℤ) (M : List Hit) (hf : ∀ h ∈ M, 0 ≤ f h ∧ f h ≤ 1024) (ht : ∀ h ∈ M, 0 ≤ h.tot)
    (htot : total Hit.tot M ≠ 0) : 0 ≤ totMean f M ∧ totMean f M ≤ 1024 := by
  have key : ∀ M' : List Hit, (∀ h ∈ M', 0 ≤ f h ∧ f h ≤ 1024) → (∀ h ∈ M', 0 ≤ h.tot) →
      0 ≤ total Hit.tot M' ∧ 0 ≤ total (fun h => f h * h.tot) M' ∧ total (fun h => f h * h.tot) M' ≤ 1024 * total Hit.tot M' := by
    intro M' h1 h2
    induction M' with
    | nil => simp [total]
    | cons h M' ih =>
      obtain ⟨i1, i2, i3⟩ := ih (fun g hg => h1 g (by simp [hg])) (fun g hg => h2 g (by simp [hg]))
      have a := h1 h (by simp)
      have b := h2 h (by simp)
      simp only [total_cons]
      have c := mul_nonneg a.1 b
      have d : f h * h.tot ≤ 1024 * h.tot := mul_le_mul_of_nonneg_right a.2 b
      refine ⟨by omega, by omega, ?_⟩
      rw [mul_add]
      omega
  obtain ⟨k1, k2, k3⟩ := key M hf ht
  have hpos : (0 : ℚ) < (total Hit.tot M : ℚ) := by
    have : 0 < total Hit.tot M := by omega
    exact_mod_cast this
  unfold totMean
  refine ⟨div_nonneg (by exact_mod_cast k2) hpos.le, ?_⟩
  rw [div_le_iff₀ hpos]
  exact_mod_cast k3

theorem approx_range (x : F64) (q : ℚ) (h : Approx (1 / 2 ^ 51) x ((1 : ℤ) * q)) (h0 : 0 ≤ q) (h1 : q ≤ 1024) :
    ∃ v, x = .fin v ∧ 0 ≤ v ∧ v ≤ 1025 := by
  obtain ⟨v, hv, hd⟩ := h
  rw [Int.cast_one, one_mul, abs_of_nonneg h0] at hd
  have e1 : q * (1 / 2 ^ 51) ≤ q := by
    calc q * (1 / 2 ^ 51) ≤ q * 1 := mul_le_mul_of_nonneg_left (by norm_num) h0
      _ = q := mul_one q
  have e2 : q * (1 / 2 ^ 51) ≤ 1 := by
    calc q * (1 / 2 ^ 51) ≤ 1024 * (1 / 2 ^ 51) := mul_le_mul_of_nonneg_right h1 (by norm_num)
      _ ≤ 1 := by norm_num
  obtain ⟨a, b⟩ := abs_le.mp hd
  exact ⟨v, hv, by linarith, by linarith⟩

theorem forall₂_source {α β : Type} {R : α → β → Prop} {as : List α} {bs : List β} (h : List.Forall₂ R as bs) {b : β} (hb : b ∈ bs) :
    ∃ a ∈ as, R a b := by
  induction h with
  | nil => cases hb
  | @cons a b' as' bs' h1 _ ih =>
    rcases List.mem_cons.mp hb with rfl | hb
    · exact ⟨a, by simp, h1⟩
    · obtain ⟨a', h2, h3⟩ := ih hb
      exact ⟨a', by simp [h2], h3⟩

/-- The neutrons of decoded hits lie on the detector. -/
theorem events_positions (x : CliCtx) (hs : List Hit) (es : List Neutron) (h : eventsOf x hs = .ok es) (hd : ∀ h ∈ hs, Decoded h)
    (hsize : hs.length ≤ 2 ^ 31) :
    ∀ e ∈ es, (∃ v, e.x = .fin v ∧ 0 ≤ v ∧ v ≤ 1025) ∧ ∃ v, e.y = .fin v ∧ 0 ≤ v ∧ v ≤ 1025 := by
  unfold eventsOf at h
  cases hf : (AbsObj.new x.params).fit hs with
  | ub u => rw [hf] at h; simp [bind, Res.bind] at h
  | throws m => rw [hf] at h; simp [bind, Res.bind] at h
  | ok a =>
    rw [hf] at h
    simp only [bind, Res.bind] at h
    obtain ⟨k, es', hk, he, hes⟩ := c31_events x.solve (AbsObj.new x.params) a hs hf rfl hd hsize
    rw [h] at he
    injection he with he
    subst he
    intro e hm
    obtain ⟨l, hmem, hr⟩ := forall₂_source hes hm
    rw [List.mem_filter] at hmem
    have htot := (of_decide_eq_true hmem.2).2
    have hsub : ∀ g ∈ members hs a.labels l, g ∈ hs := by
      intro g hg
      unfold members at hg
      obtain ⟨z, hz, rfl⟩ := List.mem_map.mp hg
      exact (List.of_mem_zip (List.mem_filter.mp hz).1).1
    have hx := totMean_bounds Hit.x (members hs a.labels l) (fun g hg => ⟨(hd g (hsub g hg)).x.1, (hd g (hsub g hg)).x.2.le⟩)
      (fun g hg => (hd g (hsub g hg)).tot.1) htot
    have hy := totMean_bounds Hit.y (members hs a.labels l) (fun g hg => ⟨(hd g (hsub g hg)).y.1, (hd g (hsub g hg)).y.2.le⟩)
      (fun g hg => (hd g (hsub g hg)).tot.1) htot
    exact ⟨approx_range _ _ hr.x hx.1 hx.2, approx_range _ _ hr.y hy.1 hy.2⟩

/-- Images of neutrons can be counted. -/
theorem neutrons_defined (sr : ℚ) (h0 : 0 ≤ sr) (h1 : sr ≤ 2 ^ 20) (edges : List F64) (hl : 2 ≤ edges.length) (mode : String)
    (hm : mode ≠ "hit") (bs : List EventBatch) (im0 : Stack) (hi : initImages (.fin sr) edges = .ok im0)
    (hh : ∀ b ∈ bs, ∀ e ∈ b.neutrons, (∃ v, e.x = .fin v ∧ 0 ≤ v ∧ v ≤ 1025) ∧ ∃ v, e.y = .fin v ∧ 0 ≤ v ∧ v ≤ 1025) :
    ∃ im, updateAll (.fin sr) edges mode im0 bs = .ok im := by
  obtain ⟨d, hd, hz⟩ := initImages_ok _ edges hl im0 hi
  rcases updateAll_cases (zeroStack_shaped _ _ _ hz) (by omega) _ edges hl hd mode bs with h | ⟨h, g⟩ | ⟨h, e, he, -, -, g⟩
  · exact h
  · exact absurd (fun h => absurd h hm) g
  · exfalso
    rw [entryList_neutrons mode hm] at he
    obtain ⟨n, hn, rfl⟩ := List.mem_map.mp he
    obtain ⟨b, hb, hn⟩ := List.mem_flatMap.mp hn
    obtain ⟨⟨v, hv, a1, a2⟩, u, hu, b1, b2⟩ := hh b hb n hn
    obtain ⟨kx, ex⟩ := toPixel_position sr h0 h1 v a1 a2
    obtain ⟨ky, ey⟩ := toPixel_position sr h0 h1 u b1 b2
    simp only [hv, hu, ex, ey, reduceCtorEq, or_self] at g

/-! ## The true hits are in range -/

theorem trueHits_tof (b : Bool) (chip : Int) (sigs : List Signal) (p : Past) : ∀ x ∈ trueHits b chip p sigs, x.tof ≠ none := by
  induction sigs generalizing p with
  | nil => intro x hx; cases hx
  | cons s ss ih =>
    intro x hx
    rw [trueHits, List.mem_append] at hx
    rcases hx with hx | hx
    · cases s with
      | pixel t col row tot ftoa =>
        simp only [Signal.hit] at hx
        split_ifs at hx with hc
        · rw [List.mem_singleton] at hx
          subst hx
          simp [trueHit]
        · cases hx
      | trigger u => cases hx
      | clock u => cases hx
    · exact ih _ x hx

theorem trueHits_earlyT (chip : Int) (sigs : List Signal) (p : Past) (h : AllTimelyT p sigs) :
    ∀ x ∈ trueHits false chip p sigs, x.spidertime.toNat < 2 ^ 48 := by
  induction sigs generalizing p with
  | nil => intro x hx; cases hx
  | cons s ss ih =>
    intro x hx
    rw [trueHits, List.mem_append] at hx
    rcases hx with hx | hx
    · cases s with
      | pixel t col row tot ftoa =>
        simp only [Signal.hit] at hx
        by_cases hc : p.trigger ≠ 0
        · obtain ⟨-, h2⟩ := h.1
          obtain ⟨a1, a2, a3⟩ := h2 hc
          rw [if_pos ⟨hc, by simp⟩, List.mem_singleton] at hx
          subst hx
          show (BitVec.ofNat 64 t).toNat < 2 ^ 48
          rw [BitVec.toNat_ofNat]
          omega
        · rw [if_neg (fun h => hc h.1)] at hx
          cases hx
      | trigger u => cases hx
      | clock u => cases hx
    · exact ih _ h.2 x hx

theorem trueReadouts_mem {b : Bool} {rs : List Readout} {p : Past} {hs : List Hit} (h : hs ∈ trueReadouts b p rs) :
    ∃ r q, r ∈ rs ∧ hs = trueHits b r.chip q r.signals := by
  induction rs generalizing p with
  | nil => cases h
  | cons r rs ih =>
    rw [trueReadouts, List.mem_cons] at h
    rcases h with rfl | h
    · exact ⟨r, p, by simp, rfl⟩
    · obtain ⟨r', q, h1, h2⟩ := ih h
      exact ⟨r', q, by simp [h1], h2⟩

theorem trueReadouts_earlyT (rs : List Readout) (p : Past) (h : AllTimelyT p (rs.flatMap Readout.signals)) :
    ∀ hs ∈ trueReadouts false p rs, ∀ x ∈ hs, x.spidertime.toNat < 2 ^ 48 := by
  induction rs generalizing p with
  | nil => intro hs hh; cases hh
  | cons r rs ih =>
    rw [List.flatMap_cons] at h
    obtain ⟨h1, h2⟩ := allTimelyT_append.mp h
    intro hs hh
    rw [trueReadouts, List.mem_cons] at hh
    rcases hh with rfl | hh
    · exact trueHits_earlyT _ _ p h1
    · exact ih _ h2 hs hh

theorem trueReadouts_fine (m : Mode) (rs : List Readout) (h : TimelyFile m ⟨0, 0⟩ rs) :
    ∀ hs ∈ trueReadouts (needsClock m) ⟨0, 0⟩ rs, ∀ x ∈ hs, x.tof ≠ none ∧ x.spidertime.toNat < 2 ^ 48 := by
  intro hs hh x hx
  refine ⟨?_, ?_⟩
  · obtain ⟨r, q, -, rfl⟩ := trueReadouts_mem hh
    exact trueHits_tof _ _ _ _ x hx
  · cases m with
    | gdc => exact trueReadouts_earlyG rs _ (by norm_num) h hs hh x hx
    | tdc => exact trueReadouts_earlyT rs _ h hs hh x hx

/-! ## The program ends -/

/-- The loop of the program ends on the file of a detector, with images of hits or of neutrons. -/
theorem detector_ends (o : ProgramOptions) (s : Settings) (solve : List GaussRow → F64 × F64) (rs : List Readout) (hrs : rs ≠ [])
    (hok : ∀ r ∈ rs, r.Ok) (htime : TimelyFile o.mode ⟨0, 0⟩ rs) (hn0 : 0 < o.chunkSize)
    (hcut : ∀ j, j * o.chunkSize < (detectorFile rs).length → ∃ k, j * o.chunkSize = (detectorFile (rs.take k)).length)
    (hp1 : o.outHits ≠ o.input) (hp2 : o.outEvents ≠ o.input) (hp3 : o.outHits = o.outEvents → o.outHits = [])
    (sr : ℚ) (hsr : s.sr = .fin sr) (hs0 : 0 ≤ sr) (hs1 : sr ≤ 2 ^ 20) (es : List F64) (hed : s.edges = .ok es) (hl : 2 ≤ es.length)
    (ht : o.tofMode ≠ "hit".toList → o.mode = .tdc → ∀ hs ∈ trueReadouts false ⟨0, 0⟩ rs, ∀ x ∈ hs, ∃ t, x.tof = some t ∧ t.toNat < 2 ^ 22) :
    ∃ w, mainCore o s solve (fun _ => {}) ((detectorFile rs).length + 1) (detectorFile rs) = .ok (.finished w) ∧
      (o.needsImages = true → Shaped (es.length - 1) (side sr) w.images) := by
  obtain ⟨f1, f2, f3⟩ := file_streams hok htime
  have hpass : onePass o.mode ⟨0, 0, 0⟩ (tagged (rs.map Readout.chunk)) = (trueReadouts (needsClock o.mode) ⟨0, 0⟩ rs).flatten := by
    rw [← f3]
    have h1 := perChunk_pass o.mode Clock.zero (by decide) (rs.map Readout.chunk)
    have h2 := perChunk_hits o.mode Clock.zero (by decide) (rs.map Readout.chunk)
    rw [show (⟨0, 0, 0⟩ : Times) = Clock.zero.times from rfl, ← h1, h2]
  have hcut' : ∀ j, j * o.chunkSize < (streamBytes (rs.map Readout.chunk)).length →
      ∃ k, j * o.chunkSize = (streamBytes ((rs.map Readout.chunk).take k)).length := by
    intro j hj
    obtain ⟨k, hk⟩ := hcut j hj
    exact ⟨k, by rw [hk, detectorFile, List.map_take]⟩
  have hfine := trueReadouts_fine o.mode rs htime
  obtain ⟨im0, hi, hsh⟩ := initImages_moderate sr hs0 hs1 es hl
  obtain ⟨w, hw⟩ := main_ends o s solve (rs.map Readout.chunk) (by simpa using hrs) f1 f2 hn0 hcut' (by
      intro x hx
      rw [hpass] at hx
      obtain ⟨hs, h1, h2⟩ := List.mem_flatten.mp hx
      exact hfine hs h1 x h2) hp1 hp2 hp3 ((detectorFile rs).length + 1) (Nat.lt_succ_self _) (by
      intro _
      refine ⟨es, im0, hed, by rw [hsr]; exact hi, fun bs c hrun hhits => ?_⟩
      have hfrom := cliRun_batches _ _ _ _ _ _ hrun
      have hch := detector_batches ⟨o.mode, s.params, solve⟩ _ hn0 rs hrs hok htime hcut _ bs c hrun
      have htofs : ∀ b ∈ bs, ∀ g ∈ b.batch.hits, g.tof ≠ none := by
        intro b hb g hg
        exact (hfine b.batch.hits (by rw [← hch]; exact List.mem_map.mpr ⟨b, hb, rfl⟩) g hg).1
      rw [hsr]
      by_cases hm : o.tofMode = "hit".toList
      · rw [hm, String.ofList_toList]
        refine c36_hits_defined sr hs0 hs1 es hl bs im0 hi ?_
        intro b hb g hg
        obtain ⟨⟨chip, ws, c0, -, he⟩, -⟩ := hfrom b hb
        have h3 := htofs b hb g hg
        rw [he] at hg
        obtain ⟨w, tdc, gdc, hw'⟩ := (runPackets_hits _ chip ws c0).2 g hg
        obtain ⟨r1, r2, -⟩ := hit_ranges _ g chip w tdc gdc hw'
        exact ⟨by omega, by omega, h3⟩
      · have hm' : String.ofList o.tofMode ≠ "hit" := by
          intro e
          apply hm
          rw [← e, String.toList_ofList]
        refine neutrons_defined sr hs0 hs1 es hl _ hm' bs im0 hi ?_
        intro b hb
        obtain ⟨⟨chip, ws, c0, hwl, he⟩, hev⟩ := hfrom b hb
        have hsz := (runPackets_hits o.mode chip ws c0).1
        refine events_positions _ _ _ hev ?_ ?_
        · intro g hx
          have hin : b.batch.hits ∈ trueReadouts (needsClock o.mode) ⟨0, 0⟩ rs := by rw [← hch]; exact List.mem_map.mpr ⟨b, hb, rfl⟩
          have hx' := hx
          rw [he] at hx
          obtain ⟨w, tdc, gdc, hw⟩ := (runPackets_hits o.mode chip ws c0).2 g hx
          obtain ⟨r1, r2, r3, -⟩ := hit_ranges o.mode g chip w tdc gdc hw
          refine ⟨by omega, by omega, by omega, ?_⟩
          cases hmode : o.mode with
          | gdc =>
            rcases hw with ⟨-, rfl⟩ | ⟨hmm, -⟩
            · obtain ⟨t, ht1, ht2⟩ := c05_bounded w tdc gdc chip
              exact ⟨t, ht1, by omega⟩
            · rw [hmode] at hmm; cases hmm
          | tdc =>
            rw [hmode] at hin
            exact ht hm hmode _ hin g hx'
        · have := congrArg List.length he
          change b.batch.hits.length = (runPackets o.mode true chip ws c0).2.length at this
          omega)
  refine ⟨w, hw, fun hni => ?_⟩
  obtain ⟨bs, c, es', im, hrun, him, hout⟩ := mainCore_batches o s solve _ _ _ w hw
  obtain ⟨-, -, k3, -, -⟩ := outputBatches_clean o s.sr es' 0 bs _ w hout
  obtain ⟨e1, e2⟩ := him hni
  rw [hed] at e1
  injection e1 with e1
  have k := k3 hni
  rw [← e1, hsr] at k e2
  rw [hi] at e2
  injection e2 with e2
  subst e2
  obtain ⟨dd, hdim, -⟩ := initImages_ok _ _ hl im0 hi
  have hdim' := dimOf_moderate sr hs0 hs1
  obtain ⟨-, g⟩ := (updateAll_iff hsh (by omega) _ _ hl hdim' _ bs w.images).mp k
  exact addEntries_shaped hsh _ _ (by rintro rfl; simp at hl) _ _ g

/-- The files after the loop can be written. -/
theorem mainFiles_exist (o : ProgramOptions) (s : Settings) (w : Outputs) (es : List F64) (hed : s.edges = .ok es) (hl : 2 ≤ es.length)
    (k : Nat) (hk : 0 < k) (hsh : o.needsImages = true → Shaped (es.length - 1) k w.images) (d : Dir) : ∃ d', MainFiles o s w d d' := by
  have h1 : ∃ d1, if o.outTof = [] then d1 = d else ∃ es, s.edges = .ok es ∧ SaveRun o.outTof o.tofBase es w.images d d1 := by
    by_cases h : o.outTof = []
    · exact ⟨d, by rw [if_pos h]⟩
    · have hni : o.needsImages = true := by
        unfold ProgramOptions.needsImages
        cases h' : o.outTof with
        | nil => exact absurd h' h
        | cons a l => rfl
      obtain ⟨d1, hd1⟩ := saveRun_exists hk o.outTof o.tofBase es w.images (hsh hni) (by omega) d
      exact ⟨d1, by rw [if_neg h]; exact ⟨es, hed, hd1⟩⟩
  obtain ⟨d1, h1⟩ := h1
  by_cases h : o.spectra = []
  · exact ⟨d1, d1, h1, by rw [if_pos h]⟩
  · have hni : o.needsImages = true := by
      unfold ProgramOptions.needsImages
      cases h' : o.spectra with
      | nil => exact absurd h' h
      | cons a l => simp
    have hrows : spectraRows es (spectralCounts w.images) = .ok (es.tail.zip (spectralCounts w.images)) := by
      unfold spectraRows
      rw [if_neg]
      rintro (h | h)
      · rw [h] at hl; simp at hl
      · unfold spectralCounts at h
        rw [List.length_map, (hsh hni).len] at h
        omega
    exact ⟨_, d1, h1, by rw [if_neg h]; exact ⟨es, _, hed, hrows, rfl⟩⟩

/-! ## The configuration -/

theorem uniformEdges_unique {n : Nat} {m : F64} {a b : List F64} (ha : UniformEdges n m a) (hb : UniformEdges n m b) : a = b := by
  apply List.ext_getElem? 
  intro i
  by_cases hi : i ≤ n
  · rw [ha.2 i hi, hb.2 i hi]
  · rw [List.getElem?_eq_none (by rw [ha.1]; omega), List.getElem?_eq_none (by rw [hb.1]; omega)]

theorem hasExtension_ne {p ext : List Char} (h : HasExtension p ext) : p ≠ [] := by
  obtain ⟨dir, name, rfl, -⟩ := h
  simp

theorem config_says {fs : Path → ConfigFile} {p : Path} {r : ℚ} {minSize range : U64} {sr : ℚ} {qs : List ℚ}
    (h : ConfigSays fs p r minSize range sr qs) (hne : p ≠ []) :
    (HasExtension p "json".toList →
      cliSettings fs p = .ok ⟨⟨.fin r, minSize.toNat, range.toNat⟩, .fin sr, .ok (qs.map .fin)⟩) ∧
    reducerSettings fs p = .ok ⟨⟨.fin r, minSize.toNat, range.toNat⟩, .fin sr, .ok (qs.map .fin)⟩ := by
  obtain ⟨text, j, h1, h2, h3, h4, h5, h6, h7, h8⟩ := h
  have hext : HasExtension p "json".toList → extensionOf p = ".json".toList := c97_extension p _
  obtain ⟨v1, v2, v3⟩ := c97_values_partial fs p text j h1 h2 hne h3 _ _ _ _ h4 h5 h6 h7
  cases h8 with
  | listed vs a1 a2 a3 =>
    obtain ⟨b1, b2⟩ := v1 vs _ a1 a3 a2
    exact ⟨fun h => b2 (hext h), b1⟩
  | uniform u n x a1 a2 a3 a4 a5 a6 =>
    obtain ⟨edges, b1, b2, b3⟩ := v2 u n x a1 a2 a3 a4 a5
    rw [uniformEdges_unique b1 a6] at b2 b3
    exact ⟨fun h => b3 (hext h), b2⟩
  | default a1 a2 a3 =>
    obtain ⟨edges, b1, b2, b3⟩ := v3 a1 a2
    rw [uniformEdges_unique b1 a3] at b2 b3
    exact ⟨fun h => b3 (hext h), b2⟩

/-! ## C108 -/

/-- The reader's mode that the words ask for. -/
def askedMode (ss : List CliSetting) : Mode := if valueOr ss 't' "tdc" = "gdc".toList then .gdc else .tdc

theorem asked_options {ss : List CliSetting} {argv : List Arg} {mb : List Char → Nat} (h : Asked ss argv mb) :
    ∃ o, parseArguments argv = .ok o ∧ o.input = valueOr ss 'i' "" ∧ o.outHits = valueOr ss 'H' "" ∧ o.outEvents = valueOr ss 'E' "" ∧
      o.configFile = valueOr ss 'u' "" ∧ o.outTof = valueOr ss 'T' "" ∧ o.tofBase = valueOr ss 'f' "tof_image" ∧
      o.tofMode = valueOr ss 'm' "neutron" ∧ o.spectra = valueOr ss 's' "Spectra" ∧ o.mode = askedMode ss ∧
      o.chunkSize = pieceSize ss mb ∧ 0 < o.chunkSize := by
  refine ⟨_, (c75_settings_partial ss argv h.written mb fun v hv => ⟨(h.sizes v hv).1, (h.sizes v hv).2.1⟩).1 h.valid, rfl, rfl, rfl, rfl,
    rfl, rfl, rfl, rfl, rfl, rfl, ?_⟩
  show 0 < ((lastValue ss 'c').map mb).getD 5120 * 2 ^ 20
  cases hc : lastValue ss 'c' with
  | none => norm_num
  | some v =>
    have := (h.sizes v (mem_of_lastValue hc)).2.2
    simp only [Option.map_some, Option.getD_some]
    positivity

/-- C108, the program ends: for every command line that asks for a run, every JSON configuration with a moderate super resolution, and
every file of a detector that is not cut, the program returns 0. -/
theorem c108_ends_partial (ss : List CliSetting) (argv : List Arg) (mb : List Char → Nat) (hargs : Asked ss argv mb)
    (fs : Path → ConfigFile) (hext : HasExtension (valueOr ss 'u' "") "json".toList) (r : ℚ) (minSize range : U64) (sr : ℚ) (qs : List ℚ)
    (hconf : ConfigSays fs (valueOr ss 'u' "") r minSize range sr qs) (hs0 : 0 < side sr) (hs1 : 0 ≤ sr ∧ sr ≤ 2 ^ 20) (hl : 2 ≤ qs.length)
    (rs : List Readout) (hrs : rs ≠ []) (hok : ∀ r ∈ rs, r.Ok) (htime : TimelyFile (askedMode ss) ⟨0, 0⟩ rs)
    (hcut : ∀ j, j * pieceSize ss mb < (detectorFile rs).length → ∃ k, j * pieceSize ss mb = (detectorFile (rs.take k)).length)
    (input : Path → Option Bytes) (hin : input (valueOr ss 'i' "") = some (detectorFile rs))
    (ht : valueOr ss 'm' "neutron" ≠ "hit".toList → askedMode ss = .tdc →
      ∀ hs ∈ trueReadouts false ⟨0, 0⟩ rs, ∀ x ∈ hs, ∃ t, x.tof = some t ∧ t.toNat < 2 ^ 22)
    (solve : List GaussRow → F64 × F64) (d : Dir) :
    ∃ o w d', MainReturnsZero argv (cliSettings fs) solve input (fun _ => {}) o w d d' := by
  obtain ⟨o, o1, o2, o3, o4, o5, o6, o7, o8, o9, o10, o11, o12⟩ := asked_options hargs
  have hset := (config_says hconf (hasExtension_ne hext)).1 hext
  obtain ⟨w, hw, hsh⟩ := detector_ends o ⟨⟨.fin r, minSize.toNat, range.toNat⟩, .fin sr, .ok (qs.map .fin)⟩ solve rs hrs hok (by rw [o10]; exact htime)
    o12 (by rw [o11]; exact hcut) (by rw [o3, o2]; exact hargs.hits) (by rw [o4, o2]; exact hargs.events)
    (by rw [o3, o4]; exact hargs.apart) sr rfl hs1.1 hs1.2 (qs.map .fin) rfl (by simpa using hl) (by rw [o8, o10]; exact ht)
  obtain ⟨d', hd'⟩ := mainFiles_exist o ⟨⟨.fin r, minSize.toNat, range.toNat⟩, .fin sr, .ok (qs.map .fin)⟩ w (qs.map .fin) rfl (by simpa using hl)
    (side sr) hs0 hsh d
  exact ⟨o, w, d', _, _, _, o1, by rw [o5]; exact hset, by rw [o2]; exact hin, hw, hd'⟩

/-- C108, images of hits: whenever it returns 0, every pixel of every image file named on the command line is the number of true hits of
the detector there and then, with the bins and the super resolution of the configuration text, and every row of the spectrum file the
number of true hits of its bin. -/
theorem c108_hits_partial (ss : List CliSetting) (argv : List Arg) (mb : List Char → Nat) (hargs : Asked ss argv mb)
    (fs : Path → ConfigFile) (hext : HasExtension (valueOr ss 'u' "") "json".toList) (r : ℚ) (minSize range : U64) (sr : ℚ) (qs : List ℚ)
    (hconf : ConfigSays fs (valueOr ss 'u' "") r minSize range sr qs) (hs0 : 0 < side sr) (hinc : qs.Pairwise (· < ·)) (hl : 2 ≤ qs.length)
    (rs : List Readout) (hrs : rs ≠ []) (hok : ∀ r ∈ rs, r.Ok) (htime : TimelyFile (askedMode ss) ⟨0, 0⟩ rs)
    (hcut : ∀ j, j * pieceSize ss mb < (detectorFile rs).length → ∃ k, j * pieceSize ss mb = (detectorFile (rs.take k)).length)
    (input : Path → Option Bytes) (hin : input (valueOr ss 'i' "") = some (detectorFile rs)) (hm : valueOr ss 'm' "neutron" = "hit".toList)
    (solve : List GaussRow → F64 × F64) (o : ProgramOptions) (w : Outputs) (d d' : Dir)
    (hfresh : ∀ i t, d (tiffName (valueOr ss 'T' "") (valueOr ss 'f' "tof_image") i) ≠ some (.tiff t))
    (h : MainReturnsZero argv (cliSettings fs) solve input (fun _ => {}) o w d d') :
    (valueOr ss 'T' "" ≠ [] → ∀ i y x, i + 1 < qs.length → y < side sr → x < side sr →
      filePixel (d' (tiffName (valueOr ss 'T' "") (valueOr ss 'f' "tof_image") i)) y x = some (counted sr qs (side sr)
        ((trueReadouts (needsClock (askedMode ss)) ⟨0, 0⟩ rs).flatten.filterMap hitEntry) i y x % 2 ^ 32)) ∧
    (valueOr ss 's' "Spectra" ≠ [] → (trueReadouts (needsClock (askedMode ss)) ⟨0, 0⟩ rs).flatten.length < 2 ^ 32 →
      ∃ rows, d' (valueOr ss 's' "Spectra" ++ ".txt".toList) = some (.spectra rows) ∧ rows.length = qs.length - 1 ∧
        ∀ i q, qs[i + 1]? = some q → ∃ n, rows[i]? = some (.fin q, n) ∧ n.toNat = countedIn sr qs (side sr)
          ((trueReadouts (needsClock (askedMode ss)) ⟨0, 0⟩ rs).flatten.filterMap hitEntry) i) := by
  obtain ⟨o', o1, o2, o3, o4, o5, o6, o7, o8, o9, o10, o11, o12⟩ := asked_options hargs
  have ho : o' = o := by
    obtain ⟨s, file, fuel, hp, -⟩ := h
    rw [o1] at hp
    injection hp
  subst ho
  have hset := (config_says hconf (hasExtension_ne hext)).1 hext
  have k := c99_hits_partial argv (cliSettings fs) solve input o' w d d' h _ (by rw [o5]; exact hset) sr qs rfl rfl hinc hl hs0
    (by rw [o6, o7]; exact hfresh) rs hrs hok (by rw [o10]; exact htime) o12 (by rw [o11]; exact hcut) (by rw [o2]; exact hin)
    (by rw [o8]; exact hm)
  rw [o6, o7, o9, o10] at k
  exact k

/-- C108, images of neutrons: the same with the neutrons, each at the mean place of its hits and their mean time, when the radius and time
range of the configuration text let the program tell the neutrons apart. -/
theorem c108_neutrons_partial (ss : List CliSetting) (argv : List Arg) (mb : List Char → Nat) (hargs : Asked ss argv mb)
    (fs : Path → ConfigFile) (hext : HasExtension (valueOr ss 'u' "") "json".toList) (r : ℚ) (minSize range : U64) (sr : ℚ) (qs : List ℚ)
    (hconf : ConfigSays fs (valueOr ss 'u' "") r minSize range sr qs) (hs0 : 0 < side sr) (hinc : qs.Pairwise (· < ·)) (hl : 2 ≤ qs.length)
    (hr : |r| ≤ 2 ^ 20) (rs : List Readout) (hrs : rs ≠ []) (hok : ∀ r ∈ rs, r.Ok) (htime : TimelyFile (askedMode ss) ⟨0, 0⟩ rs)
    (hcut : ∀ j, j * pieceSize ss mb < (detectorFile rs).length → ∃ k, j * pieceSize ss mb = (detectorFile (rs.take k)).length)
    (input : Path → Option Bytes) (hin : input (valueOr ss 'i' "") = some (detectorFile rs)) (hm : valueOr ss 'm' "neutron" ≠ "hit".toList)
    (ht : askedMode ss = .tdc → ∀ hs ∈ trueReadouts false ⟨0, 0⟩ rs, ∀ x ∈ hs, ∃ t, x.tof = some t ∧ t.toNat < 2 ^ 22)
    (neutron : List (List Int))
    (hres : List.Forall₂ (Resolved range.toNat r) (trueReadouts (needsClock (askedMode ss)) ⟨0, 0⟩ rs) neutron)
    (solve : List GaussRow → F64 × F64) (o : ProgramOptions) (w : Outputs) (d d' : Dir)
    (hfresh : ∀ i t, d (tiffName (valueOr ss 'T' "") (valueOr ss 'f' "tof_image") i) ≠ some (.tiff t))
    (h : MainReturnsZero argv (cliSettings fs) solve input (fun _ => {}) o w d d') :
    ∃ es : List Neutron,
      List.Forall₂ (IsEventOf 1)
        (List.zipWith (visible minSize.toNat) (trueReadouts (needsClock (askedMode ss)) ⟨0, 0⟩ rs) neutron).flatten es ∧
      (valueOr ss 'T' "" ≠ [] → ∀ i y x, i + 1 < qs.length → y < side sr → x < side sr →
        filePixel (d' (tiffName (valueOr ss 'T' "") (valueOr ss 'f' "tof_image") i)) y x =
          some (counted sr qs (side sr) (es.map eventEntry) i y x % 2 ^ 32)) ∧
      (valueOr ss 's' "Spectra" ≠ [] → es.length < 2 ^ 32 →
        ∃ rows, d' (valueOr ss 's' "Spectra" ++ ".txt".toList) = some (.spectra rows) ∧ rows.length = qs.length - 1 ∧
          ∀ i q, qs[i + 1]? = some q → ∃ n, rows[i]? = some (.fin q, n) ∧
            n.toNat = countedIn sr qs (side sr) (es.map eventEntry) i) := by
  obtain ⟨o', o1, o2, o3, o4, o5, o6, o7, o8, o9, o10, o11, o12⟩ := asked_options hargs
  have ho : o' = o := by
    obtain ⟨s, file, fuel, hp, -⟩ := h
    rw [o1] at hp
    injection hp
  subst ho
  have hset := (config_says hconf (hasExtension_ne hext)).1 hext
  have k := c99_neutrons_partial argv (cliSettings fs) solve input o' w d d' h _ (by rw [o5]; exact hset) sr qs rfl rfl hinc hl hs0
    (by rw [o6, o7]; exact hfresh) rs hrs hok (by rw [o10]; exact htime) o12 (by rw [o11]; exact hcut) (by rw [o2]; exact hin)
    (by rw [o8]; exact hm) r rfl hr range.isLt (by rw [o10]; exact ht) neutron (by rw [o10]; exact hres)
  rw [o6, o7, o9, o10] at k
  exact k

/-! ## The automatic reducer -/

/-- C108 for the automatic reducer, images of hits: in every run, as soon as the files processed with success are the parts of a
measurement, every pixel of every image file is the number of true hits of the measurement. -/
theorem c108_reducer_hits_partial (ss : List CliSetting) (argv : List Arg) (sec : List Char → Nat) (hargs : AskedReducer ss argv sec)
    (fs : Path → ConfigFile) (hcne : valueOr ss 'u' "" ≠ []) (r : ℚ) (minSize range : U64) (sr : ℚ) (qs : List ℚ)
    (hconf : ConfigSays fs (valueOr ss 'u' "") r minSize range sr qs) (hs0 : 0 < side sr) (hs1 : 0 ≤ sr ∧ sr ≤ 2 ^ 20)
    (hinc : qs.Pairwise (· < ·)) (hl : 2 ≤ qs.length) (hm : valueOr ss 'm' "neutron" = "hit".toList)
    (solve : List GaussRow → F64 × F64) (polls : List (List DirEntry × List DirEntry)) (d : Dir) (s : RedState) (code : Option Nat)
    (hfresh : ∀ i t, d (tiffName (valueOr ss 'o' "") (valueOr ss 'f' "tof_image") i) ≠ some (.tiff t))
    (h : RedMain argv (reducerSettings fs) solve polls d s code)
    (parts : List (List Readout)) (hne : parts ≠ []) (hdated : ∀ rs ∈ parts, StartsDated rs)
    (hok : ∀ rs ∈ parts, ∀ r ∈ rs, r.Ok) (htime : TimelyFile .gdc ⟨0, 0⟩ parts.flatten)
    (hall : ((doneFiles s.log).map Prod.snd).Perm (parts.map detectorFile))
    (i y z : Nat) (hi : i + 1 < qs.length) (hy : y < side sr) (hz : z < side sr) :
    filePixel (s.dir (tiffName (valueOr ss 'o' "") (valueOr ss 'f' "tof_image") i)) y z = some (counted sr qs (side sr)
      ((trueReadouts true ⟨0, 0⟩ parts.flatten).flatten.filterMap hitEntry) i y z % 2 ^ 32) := by
  have hparse := (c79_settings_partial ss argv hargs.written sec hargs.seconds _ rfl).1 hargs.valid
  have hset := (config_says hconf hcne).2
  have hdone : doneFiles s.log ≠ [] := by
    intro e
    rw [e] at hall
    have := hall.length_eq
    simp only [List.map_nil, List.length_nil, List.length_map] at this
    exact hne (List.length_eq_zero_iff.mp this.symm)
  obtain ⟨o, c, es, st, a1, a2, a3, a4⟩ := redMain_mon h hdone
  rw [hparse] at a1
  injection a1 with a1
  subst a1
  change reducerSettings fs (valueOr ss 'u' "") = _ at a2
  rw [hset] at a2
  injection a2 with a2
  subst a2
  injection a3 with a3
  subst a3
  exact c99_reducer_hits_partial _ sr qs (side sr) rfl rfl hinc hl (dimOf_moderate sr hs1.1 hs1.2) hs0
    (by show String.ofList (valueOr ss 'm' "neutron") = "hit"; rw [hm, String.ofList_toList]) d hfresh polls s st a4 parts hne hdated hok htime hall
    i y z hi hy hz

/-- C108 for the automatic reducer, images of neutrons. -/
theorem c108_reducer_neutrons_partial (ss : List CliSetting) (argv : List Arg) (sec : List Char → Nat) (hargs : AskedReducer ss argv sec)
    (fs : Path → ConfigFile) (hcne : valueOr ss 'u' "" ≠ []) (r : ℚ) (minSize range : U64) (sr : ℚ) (qs : List ℚ)
    (hconf : ConfigSays fs (valueOr ss 'u' "") r minSize range sr qs) (hs0 : 0 < side sr) (hs1 : 0 ≤ sr ∧ sr ≤ 2 ^ 20)
    (hinc : qs.Pairwise (· < ·)) (hl : 2 ≤ qs.length) (hr : |r| ≤ 2 ^ 20) (hm : valueOr ss 'm' "neutron" ≠ "hit".toList)
    (solve : List GaussRow → F64 × F64) (polls : List (List DirEntry × List DirEntry)) (d : Dir) (s : RedState) (code : Option Nat)
    (hfresh : ∀ i t, d (tiffName (valueOr ss 'o' "") (valueOr ss 'f' "tof_image") i) ≠ some (.tiff t))
    (h : RedMain argv (reducerSettings fs) solve polls d s code)
    (parts : List (List Readout)) (hne : parts ≠ []) (hdated : ∀ rs ∈ parts, StartsDated rs)
    (hok : ∀ rs ∈ parts, ∀ r ∈ rs, r.Ok) (htime : TimelyFile .gdc ⟨0, 0⟩ parts.flatten)
    (hall : ((doneFiles s.log).map Prod.snd).Perm (parts.map detectorFile))
    (neutron : List Hit → List Int)
    (hres : ∀ hs ∈ trueReadouts true ⟨0, 0⟩ parts.flatten, Resolved range.toNat r hs (neutron hs)) :
    ∃ es : List Neutron,
      List.Forall₂ (IsEventOf 1)
        ((trueReadouts true ⟨0, 0⟩ parts.flatten).flatMap fun hs => visible minSize.toNat hs (neutron hs)) es ∧
      ∀ i y z, i + 1 < qs.length → y < side sr → z < side sr →
        filePixel (s.dir (tiffName (valueOr ss 'o' "") (valueOr ss 'f' "tof_image") i)) y z =
          some (counted sr qs (side sr) (es.map eventEntry) i y z % 2 ^ 32) := by
  have hparse := (c79_settings_partial ss argv hargs.written sec hargs.seconds _ rfl).1 hargs.valid
  have hset := (config_says hconf hcne).2
  have hdone : doneFiles s.log ≠ [] := by
    intro e
    rw [e] at hall
    have := hall.length_eq
    simp only [List.map_nil, List.length_nil, List.length_map] at this
    exact hne (List.length_eq_zero_iff.mp this.symm)
  obtain ⟨o, c, es, st, a1, a2, a3, a4⟩ := redMain_mon h hdone
  rw [hparse] at a1
  injection a1 with a1
  subst a1
  change reducerSettings fs (valueOr ss 'u' "") = _ at a2
  rw [hset] at a2
  injection a2 with a2
  subst a2
  injection a3 with a3
  subst a3
  exact c99_reducer_neutrons_partial _ sr qs (side sr) rfl rfl hinc hl (dimOf_moderate sr hs1.1 hs1.2) hs0
    (by
      show String.ofList (valueOr ss 'm' "neutron") ≠ "hit"
      intro e
      apply hm
      rw [← e, String.toList_ofList]) r rfl hr range.isLt d hfresh polls s st a4 parts hne hdated hok htime hall neutron hres

/-! ## The hypotheses are met -/

/-- Uniform bins up to a moderate end have increasing edges. -/
theorem uniform_increasing (n : Nat) (m : ℚ) (h0 : 0 < n) (hn : n < 2 ^ 31 - 1) (h1 : (2 : ℚ) ^ (-900 : ℤ) ≤ m) (h2 : m ≤ 2 ^ (900 : ℤ)) :
    ∃ qs : List ℚ, UniformEdges n (.fin m) (qs.map .fin) ∧ qs.Pairwise (· < ·) ∧ qs.length = n + 1 := by
  obtain ⟨qs, a1, a2, a3, -⟩ := c34_strict ⟨some (n : Int), some (.fin m), []⟩ n m rfl h0 hn rfl rfl h1 h2
  refine ⟨qs, ⟨by simpa using a2, fun i hi => ?_⟩, a3, a2⟩
  clear h1 h2
  rw [getBinEdges_uniform _ n rfl hn rfl, Res.ok.injEq] at a1
  rw [← a1, List.getElem?_map, List.getElem?_range (by omega)]
  rfl

/-- The text `{"abs": {"radius": 6.5}}` says radius 6.5 and the defaults: 1500 bins up to 16.7 ms. -/
theorem small_config : ∃ qs : List ℚ, qs.Pairwise (· < ·) ∧ qs.length = 1501 ∧
    ConfigSays (fun _ => .text "{\"abs\": {\"radius\": 6.5}}\n".toList) "run.json".toList (13 / 2) 1 75 1 qs := by
  have hm : F64.ofRat (167 / 10000) = .fin (2406723640866793 / 144115188075855872) := by decide +kernel
  obtain ⟨qs, h1, h2, h3⟩ := uniform_increasing 1500 (2406723640866793 / 144115188075855872) (by norm_num) (by norm_num)
    (le_trans (zpow_le_zpow_right₀ (by norm_num) (show (-900 : ℤ) ≤ -6 by norm_num)) (by norm_num))
    (le_trans (show _ ≤ (2 : ℚ) ^ (0 : ℤ) by norm_num) (zpow_le_zpow_right₀ (by norm_num) (by norm_num)))
  refine ⟨qs, h2, h3, _, _, rfl, small_isJson, ⟨⟨_, rfl⟩, ?_, ?_⟩, ?_, rfl, rfl, rfl, ?_⟩
  · intro v hv
    injection hv with hv
    exact ⟨_, hv.symm⟩
  · intro v hv; cases hv
  · exact IsDouble.float _
  · exact .default rfl rfl (by rw [hm]; exact h1)

/-- `-i run.tpx3 -u run.json -T out -m hit`, a detector file that is smaller than a piece, and a configuration text. -/
example : ∃ (ss : List CliSetting) (argv : List Arg) (mb : List Char → Nat) (fs : Path → ConfigFile) (qs : List ℚ), Asked ss argv mb ∧
    HasExtension (valueOr ss 'u' "") "json".toList ∧ ConfigSays fs (valueOr ss 'u' "") (13 / 2) 1 75 1 qs ∧ qs.Pairwise (· < ·) ∧
    2 ≤ qs.length ∧ 0 < side 1 ∧ valueOr ss 'm' "neutron" = "hit".toList ∧ askedMode ss = .tdc ∧
    ∀ j, j * pieceSize ss mb < (detectorFile exShot).length → ∃ k, j * pieceSize ss mb = (detectorFile (exShot.take k)).length := by
  obtain ⟨qs, h1, h2, h3⟩ := small_config
  refine ⟨[.value 'i' "run.tpx3".toList, .value 'u' "run.json".toList, .value 'T' "out".toList, .value 'm' "hit".toList],
    ["-i".toList, "run.tpx3".toList, "-u".toList, "run.json".toList, "-T".toList, "out".toList, "-mhit".toList], fun _ => 0, _, qs,
    ⟨?_, ?_, ?_, by decide, by decide, by decide⟩, ?_, h3, h1, by omega, ?_, by decide, by decide, ?_⟩
  · exact .separate [] 'i' _ (by simp) (by decide) (.separate [] 'u' _ (by simp) (by decide) (.separate [] 'T' _ (by simp) (by decide)
      (.attached [] 'm' _ (by simp) (by decide) (by decide) .nil)))
  · intro v hv
    exfalso
    revert hv
    simp
  · unfold SettingsValid; decide
  · exact ⟨[], "run".toList, rfl, Or.inl rfl, by decide, by decide, by decide, by decide, by decide⟩
  · unfold side
    rw [show (517 : ℚ) * 1 = ((517 : ℤ) : ℚ) by norm_num, rndQ_int (by norm_num), Int.floor_intCast]
    decide
  · intro j hj
    have hp : pieceSize [.value 'i' "run.tpx3".toList, .value 'u' "run.json".toList, .value 'T' "out".toList, .value 'm' "hit".toList] (fun _ => 0) =
        5120 * 2 ^ 20 := by decide
    have hlen : (detectorFile exShot).length < 1000 := by decide +kernel
    rw [hp] at hj ⊢
    have : j = 0 := by omega
    exact ⟨0, by subst this; rfl⟩

/-- `-i raw -o out -u run.json -c2 -m hit` asks the reducer for a run. -/
example : ∃ (ss : List CliSetting) (argv : List Arg) (sec : List Char → Nat), AskedReducer ss argv sec ∧ valueOr ss 'u' "" ≠ [] ∧
    valueOr ss 'm' "neutron" = "hit".toList := by
  refine ⟨[.value 'i' "raw".toList, .value 'o' "out".toList, .value 'u' "run.json".toList, .value 'c' "2".toList, .value 'm' "hit".toList],
    ["-i".toList, "raw".toList, "-o".toList, "out".toList, "-u".toList, "run.json".toList, "-c2".toList, "-mhit".toList], fun _ => 2,
    ⟨?_, ?_, ?_⟩, by decide, by decide⟩
  · exact .separate [] 'i' _ (by simp) (by decide) (.separate [] 'o' _ (by simp) (by decide) (.separate [] 'u' _ (by simp) (by decide)
      (.attached [] 'c' _ (by simp) (by decide) (by decide) (.attached [] 'm' _ (by simp) (by decide) (by decide) .nil))))
  · intro v hv
    simp at hv
    subst hv
    exact ⟨⟨by decide, by decide, by decide⟩, by norm_num⟩
  · unfold RedSettingsValid; decide

end Verif.Props
