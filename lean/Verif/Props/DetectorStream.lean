import Verif.Props.DetectorLegacy
import Verif.Props.GaussFit
import Verif.Props.Interleaved

/-!
# C102: the streaming program finds the neutrons of a detector
-/

namespace Verif.Props

open Verif Verif.Spec

/-- The hits of a neutron are a peak at `(p, q)` that the fit can see: the signals above the median lie on a Gaussian there and determine a
place, the solver is right up to `ε`, and the peak is not at the very edge. -/
structure PeakAt (solve : List GaussRow → F64 × F64) (ε : ℝ) (M : List Hit) (p q : ℝ) : Prop where
  px : ε / 2 + 1 / 2 ^ 40 ≤ p ∧ p ≤ 2 ^ 11
  py : ε / 2 + 1 / 2 ^ 40 ≤ q ∧ q ≤ 2 ^ 11
  peak : ∃ (m : ℚ) (σ A : ℝ), IsMedian m (M.map Hit.tot) ∧ OnGaussian p q σ A (samples m (M.filter fun h => m < (h.tot : ℚ))) ∧
    Determined (samples m (M.filter fun h => m < (h.tot : ℚ))) ∧
    SolvesWithin ε (solve (fitRows m (M.filter fun h => m < (h.tot : ℚ)))) (samples m (M.filter fun h => m < (h.tot : ℚ)))

/-- The numbers of the neutrons with at least eight hits. -/
def bright (hits : List Hit) (neutron : List Int) : List Nat :=
  (List.range neutron.toFinset.card).filter fun n : Nat => 8 ≤ (members hits neutron n).length

/-- The event of a neutron: at its place, with the number of its hits. -/
def EventOf (ε : ℝ) (hits : List Hit) (neutron : List Int) (p q : Nat → ℝ) (n : Nat) (e : Neutron) : Prop :=
  EventAt ε (p n) (q n) e ∧ e.nHits = (members hits neutron n).length

theorem nonneg_of_at {ε p q : ℝ} {e : Neutron} (h : EventAt ε p q e) (hp : ε / 2 + 1 / 2 ^ 40 ≤ p) (hq : ε / 2 + 1 / 2 ^ 40 ≤ q) :
    F64.le (F64.ofRat 0) e.x = true ∧ F64.le (F64.ofRat 0) e.y = true := by
  obtain ⟨x, y, hx, hy, h1, h2⟩ := h
  have z : F64.ofRat 0 = .fin 0 := by
    have := F64.ofRat_int (n := 0) (by norm_num)
    simpa using this
  rw [hx, hy, z]
  have hx0 : (0 : ℝ) ≤ x := by linarith [(abs_le.mp h1).1]
  have hy0 : (0 : ℝ) ≤ y := by linarith [(abs_le.mp h2).1]
  constructor
  · simp only [F64.le, decide_eq_true_eq]; exact_mod_cast hx0
  · simp only [F64.le, decide_eq_true_eq]; exact_mod_cast hy0

/-- The events of a batch whose neutrons are peaks. -/
theorem gauss_bright {solve : List GaussRow → F64 × F64} {ε : ℝ} (hε : 0 ≤ ε ∧ ε ≤ 1) {data : List Hit} {neutron : List Int}
    {es : List Neutron} (h : GaussEvents solve 1 data neutron es) (hd : ∀ h ∈ data, Decoded h) (p q : Nat → ℝ)
    (hpeak : ∀ n ∈ bright data neutron, PeakAt solve ε (members data neutron n) (p n) (q n)) :
    List.Forall₂ (EventOf ε data neutron p q) (bright data neutron) es := by
  obtain ⟨k, fits, hk, hf, rfl⟩ := h
  have hcard : neutron.toFinset.card = k := by
    have : neutron.toFinset = Finset.Ico (0 : Int) k := by ext l; rw [List.mem_toFinset, hk, Finset.mem_Ico]
    rw [this, Int.card_Ico]
    omega
  have hb : ∀ n ∈ bright data neutron, EventOf ε data neutron p q n (fits n) := by
    intro n hn
    have hn' := hn
    simp only [bright, List.mem_filter, List.mem_range, decide_eq_true_eq, hcard] at hn'
    obtain ⟨⟨px1, px2⟩, ⟨py1, py2⟩, m, σ, A, hm, hg, hdet, hs⟩ := hpeak n hn
    obtain ⟨e, h1, h2, h3⟩ := c101_gaussian_partial solve (members data neutron n) hn'.2 (fun x hx => hd x (mem_members hx)) m hm _ rfl
      (p n) (q n) σ A ε (by rw [abs_of_nonneg (by linarith [hε.1, show (0 : ℝ) ≤ 1 / 2 ^ 40 by norm_num])]; exact px2)
      (by rw [abs_of_nonneg (by linarith [hε.1, show (0 : ℝ) ≤ 1 / 2 ^ 40 by norm_num])]; exact py2) hε.2 hg hdet hs
    rw [hf n hn'.1] at h1
    injection h1 with h1
    rw [h1]
    exact ⟨h3, h2⟩
  have he : ((List.range k).filter fun l : Nat => 8 ≤ (members data neutron l).length ∧ 1 ≤ (members data neutron l).length ∧
      F64.le (F64.ofRat 0) (fits l).x = true ∧ F64.le (F64.ofRat 0) (fits l).y = true) = bright data neutron := by
    unfold bright
    rw [hcard]
    apply List.filter_congr
    intro n hn
    rw [decide_eq_decide]
    refine ⟨fun h => h.1, fun h => ⟨h, by omega, ?_⟩⟩
    have hn' : n ∈ bright data neutron := by
      simp only [bright, List.mem_filter, hcard, decide_eq_true_eq]
      exact ⟨hn, h⟩
    have hp := hpeak n hn'
    exact nonneg_of_at (hb n hn').1 hp.px.1 hp.py.1
  rw [he, List.forall₂_map_right_iff, List.forall₂_same]
  exact hb

/-- `neutron` tells which neutron caused each hit, in a way that the older library can recover with a reach of 5 pixels and 75 ns: fewer
than three other neutrons between the hits of one, or four when the hits are in order of time. -/
structure ResolvedL (hits : List Hit) (neutron : List Int) : Prop where
  length : neutron.length = hits.length
  numbered : Numbered neutron
  coherent : Coherent 75 5 3 hits neutron ∨ (InOrder hits ∧ Coherent 75 5 4 hits neutron)
  apart : NeutronsApart 75 (5 + 1 / 2 ^ 32) hits neutron

theorem labels_resolved {hits : List Hit} {neutron : List Int} (h : ResolvedL hits neutron) (hd : ∀ h ∈ hits, Decoded h)
    (ht : ∀ h ∈ hits, h.spidertime.toNat < 2 ^ 48) {o : AbsObj}
    (ho : ((AbsObj.new ⟨F64.ofRat 5, 1, 75⟩).setMethod "fast_gaussian").legacyFit hits = .ok o) : o.labels = neutron := by
  have h5 : F64.ofRat 5 = .fin 5 := by
    have := F64.ofRat_int (n := 5) (by norm_num)
    simpa using this
  have hpos : ∀ h ∈ hits, |h.x| ≤ 2 ^ 20 ∧ |h.y| ≤ 2 ^ 20 := by
    intro g hg
    have hd' := hd g hg
    rw [abs_of_nonneg hd'.x.1, abs_of_nonneg hd'.y.1]
    have := hd'.x.2
    have := hd'.y.2
    omega
  rcases h.coherent with hc | ⟨hi, hc⟩
  · exact c83_legacy _ o hits ho 5 h5 (by norm_num [abs_le]) (by decide) ht hpos neutron h.length h.numbered 3 (Or.inl le_rfl) hc h.apart
  · exact c83_legacy _ o hits ho 5 h5 (by norm_num [abs_le]) (by decide) ht hpos neutron h.length h.numbered 4 (Or.inr ⟨hi, le_rfl⟩) hc
      h.apart

/-- The events of batches whose neutrons are peaks. -/
theorem batches_bright (solve : List GaussRow → F64 × F64) {ε : ℝ} (hε : 0 ≤ ε ∧ ε ≤ 1) (out : List (List Hit)) (hne : ∀ b ∈ out, b ≠ [])
    (ht : ∀ b ∈ out, ∀ h ∈ b, Decoded h ∧ h.spidertime.toNat < 2 ^ 48) (neutron : List Hit → List Int) (p q : List Hit → Nat → ℝ)
    (hres : ∀ b ∈ out, ResolvedL b (neutron b))
    (hpeak : ∀ b ∈ out, ∀ n ∈ bright b (neutron b), PeakAt solve ε (members b (neutron b) n) (p b n) (q b n)) :
    ∃ ess, processBatches solve out = .ok ess.flatten ∧ List.Forall₂ (fun b es =>
      List.Forall₂ (EventOf ε b (neutron b) (p b) (q b)) (bright b (neutron b)) es) out ess := by
  obtain ⟨ess, h1, h2⟩ := c101_stream solve out hne (fun b hb h hh => ⟨by
    obtain ⟨t, e, -⟩ := (ht b hb h hh).1.tof
    rw [e]; simp, (ht b hb h hh).2⟩)
  refine ⟨ess, h1, ?_⟩
  clear h1
  induction h2 with
  | nil => exact .nil
  | cons hx hxs ih =>
    rename_i b es out ess
    obtain ⟨o, ho, hg⟩ := hx
    refine .cons ?_ (ih (fun c hc => hne c (by simp [hc])) (fun c hc => ht c (by simp [hc])) (fun c hc => hres c (by simp [hc]))
      (fun c hc => hpeak c (by simp [hc])))
    rw [labels_resolved (hres b (by simp)) (fun x hx => (ht b (by simp) x hx).1) (fun x hx => (ht b (by simp) x hx).2) ho] at hg
    exact gauss_bright hε hg (fun x hx => (ht b (by simp) x hx).1) (p b) (q b) (hpeak b (by simp))

/-! ## The hits of a detector -/

theorem trueHit_decoded {chip : Int} {T t col row tot ftoa : Nat} (hok : PixelOk col row tot ftoa)
    (ht : t - T < 2 ^ 22) : Decoded (trueHit chip T t col row tot ftoa) := by
  obtain ⟨hcol, hrow, htot, -⟩ := hok
  have hp : 0 ≤ (onDetector chip col row).1 ∧ (onDetector chip col row).1 < 1024 ∧ 0 ≤ (onDetector chip col row).2 ∧
      (onDetector chip col row).2 < 1024 := by
    unfold onDetector
    split_ifs <;> simp only <;> omega
  refine ⟨⟨hp.1, hp.2.1⟩, ⟨hp.2.2.1, hp.2.2.2⟩, ⟨by simp [trueHit], by simp only [trueHit]; omega⟩, _, rfl, ?_⟩
  rw [BitVec.toNat_ofNat]
  exact (Nat.mod_le _ _).trans_lt ht

theorem everyHit_decoded {chip : Int} (p : Past) (sigs : List Signal) (hs : AllTimelyL p sigs)
    (ht : ∀ h ∈ everyHit chip p sigs, ∀ t, h.tof = some t → t.toNat < 2 ^ 22) : ∀ h ∈ everyHit chip p sigs, Decoded h := by
  induction sigs generalizing p with
  | nil => simp [everyHit]
  | cons s ss ih =>
    obtain ⟨h1, h2⟩ := hs
    cases s with
    | trigger t => exact ih _ h2 ht
    | clock t => exact ih _ h2 ht
    | pixel t col row tot ftoa =>
      obtain ⟨hok, h3, h4, -⟩ := h1
      simp only [everyHit, List.mem_cons] at ht ⊢
      rintro h (rfl | hh)
      · refine trueHit_decoded hok ?_
        have := ht _ (Or.inl rfl) _ rfl
        rw [BitVec.toNat_ofNat, Nat.mod_eq_of_lt (by omega)] at this
        exact this
      · exact ih p h2 (fun h hh => ht h (Or.inr hh)) h hh

theorem timelyL_append {p : Past} {a b : List Signal} (h : AllTimelyL p (a ++ b)) :
    AllTimelyL p a ∧ AllTimelyL (a.foldl Past.after p) b := by
  induction a generalizing p with
  | nil => exact ⟨trivial, h⟩
  | cons s a ih =>
    obtain ⟨h1, h2⟩ := h
    obtain ⟨h3, h4⟩ := ih h2
    exact ⟨⟨h1, h3⟩, h4⟩

theorem everyReadout_decoded (p : Past) (rs : List Readout) (hfit : ∀ r ∈ rs, r.Fits) (hs : AllTimelyL p (rs.flatMap Readout.signals))
    (ht : ∀ h ∈ everyReadout p rs, ∀ t, h.tof = some t → t.toNat < 2 ^ 22) : ∀ h ∈ everyReadout p rs, Decoded h := by
  induction rs generalizing p with
  | nil => simp [everyReadout]
  | cons r rs ih =>
    rw [List.flatMap_cons] at hs
    obtain ⟨h1, h2⟩ := timelyL_append hs
    simp only [everyReadout, List.mem_append] at ht ⊢
    rintro h (hh | hh)
    · exact everyHit_decoded p _ h1 (fun h hh => ht h (Or.inl hh)) h hh
    · exact ih _ (fun r hr => hfit r (by simp [hr])) h2 (fun h hh => ht h (Or.inr hh)) h hh

/-! ## The program -/

/-- C102, for every interleaving: if the neutrons of each batch can be told apart and the bright ones (eight hits or more) are peaks,
`events_streamed.h5` holds exactly one event for each bright neutron of each batch, in order, at the centre of its peak and with the number
of its hits.  Without bright neutrons the program ends with an uncaught exception and writes nothing.
Missing: a neutron whose hits are spread over two batches, hits that never reach a batch (`c102_false`), neutrons of fewer than eight
hits. -/
theorem c102_batches_partial (solve : List GaussRow → F64 × F64) (junk : Nat → U64) (rs : List Readout) (hfit : ∀ r ∈ rs, r.Fits)
    (hs : AllTimelyL ⟨0, 0⟩ (rs.flatMap Readout.signals)) (hj : ¬ StartsTPX (junk ((detectorFile rs).length / 8)))
    (ht : ∀ h ∈ everyReadout ⟨0, 0⟩ rs, ∀ t, h.tof = some t → t.toNat < 2 ^ 22) (sched : Nat → Bool) (n : Nat)
    (hits : List Hit) (hr : streamReader junk (detectorFile rs) = .ok (some hits))
    (hfin : ((StreamSys.init true hits).run sched n).phase = .finished) (d : Disk) (ε : ℝ) (hε : 0 ≤ ε ∧ ε ≤ 1) (out : List (List Hit))
    (hout : out = ((StreamSys.init true hits).run sched n).out) (neutron : List Hit → List Int) (p q : List Hit → Nat → ℝ)
    (hres : ∀ b ∈ out, ResolvedL b (neutron b))
    (hpeak : ∀ b ∈ out, ∀ n ∈ bright b (neutron b), PeakAt solve ε (members b (neutron b) n) (p b n) (q b n)) :
    hits = everyReadout ⟨0, 0⟩ rs ∧ MissesOnlyAStretch 10000 (everyReadout ⟨0, 0⟩ rs) out.flatten ∧
    ∃ ess d' r, List.Forall₂ (fun b es => List.Forall₂ (EventOf ε b (neutron b) (p b) (q b)) (bright b (neutron b)) es) out ess ∧
      streamFinish solve none out d = .ok (d', r) ∧
      (ess.flatten = [] → d' = d ∧ r = .aborted "No events to save") ∧
      (ess.flatten ≠ [] → r = .exit 0 ∧ d' "events_streamed.h5".toList = some (.h5 (eventsFile ess.flatten)) ∧
        OthersKept "events_streamed.h5".toList d d') := by
  have he : hits = everyReadout ⟨0, 0⟩ rs := by
    rw [c100_stream_partial junk rs hfit hs hj] at hr
    simpa using hr.symm
  refine ⟨he, by rw [← he, hout]; exact c52_delivery_partial hits sched n hfin, ?_⟩
  have hfull := (FullBatches.run hits sched n).2 hfin
  have hmem := run_hits hfin
  rw [← hout] at hfull hmem
  have htm := streamReader_times hr
  have hdec := everyReadout_decoded ⟨0, 0⟩ rs hfit hs ht
  rw [← he] at hdec
  obtain ⟨ess, h1, h2⟩ := batches_bright solve hε out hfull.1
    (fun b hb x hx => ⟨hdec x (hmem b hb x hx), (htm x (hmem b hb x hx)).2⟩) neutron p q hres hpeak
  by_cases h0 : ess.flatten = []
  · refine ⟨ess, d, _, h2, ?_, fun _ => ⟨rfl, rfl⟩, fun h => absurd h0 h⟩
    unfold streamFinish
    rw [h1, h0]
    rfl
  · obtain ⟨d', h3, h4, h5⟩ := c82_events "events_streamed.h5".toList ess.flatten d h0
    refine ⟨ess, d', .exit 0, h2, ?_, fun h => absurd h h0, fun _ => ⟨rfl, h4, h5⟩⟩
    unfold streamFinish
    rw [h1]
    simp only [bind, Res.bind]
    rw [h3]

/-- C102, if the reader is through before the processor starts: one event for each bright neutron of the detector, at its place. -/
theorem c102_neutrons_partial (solve : List GaussRow → F64 × F64) (junk : Nat → U64) (rs : List Readout) (hfit : ∀ r ∈ rs, r.Fits)
    (hs : AllTimelyL ⟨0, 0⟩ (rs.flatMap Readout.signals)) (hj : ¬ StartsTPX (junk ((detectorFile rs).length / 8)))
    (ht : ∀ h ∈ everyReadout ⟨0, 0⟩ rs, ∀ t, h.tof = some t → t.toNat < 2 ^ 22) (sched : Nat → Bool) (n : Nat)
    (hfirst : ∀ m, m ≤ (everyReadout ⟨0, 0⟩ rs).length → sched m = true)
    (hfin : ((StreamSys.init true (everyReadout ⟨0, 0⟩ rs)).run sched n).phase = .finished) (d : Disk) (ε : ℝ) (hε : 0 ≤ ε ∧ ε ≤ 1)
    (neutron : List Int) (hres : ResolvedL (everyReadout ⟨0, 0⟩ rs) neutron) (p q : Nat → ℝ)
    (hpeak : ∀ n ∈ bright (everyReadout ⟨0, 0⟩ rs) neutron, PeakAt solve ε (members (everyReadout ⟨0, 0⟩ rs) neutron n) (p n) (q n))
    (hsome : bright (everyReadout ⟨0, 0⟩ rs) neutron ≠ []) :
    ∃ es d', streamReader junk (detectorFile rs) = .ok (some (everyReadout ⟨0, 0⟩ rs)) ∧
      List.Forall₂ (EventOf ε (everyReadout ⟨0, 0⟩ rs) neutron p q) (bright (everyReadout ⟨0, 0⟩ rs) neutron) es ∧
      streamFinish solve none ((StreamSys.init true (everyReadout ⟨0, 0⟩ rs)).run sched n).out d = .ok (d', .exit 0) ∧
      d' "events_streamed.h5".toList = some (.h5 (eventsFile es)) ∧ OthersKept "events_streamed.h5".toList d d' := by
  have hr := c100_stream_partial junk rs hfit hs hj
  have hne : everyReadout ⟨0, 0⟩ rs ≠ [] := by
    intro h0
    apply hsome
    have := hres.length
    rw [h0, List.length_nil, List.length_eq_zero_iff] at this
    rw [this]
    rfl
  have hout := c52_reader_batch _ sched n hfirst hfin
  rw [oneBatch, if_neg hne] at hout
  obtain ⟨-, -, ess, d', r, h2, h3, -, h5⟩ := c102_batches_partial solve junk rs hfit hs hj ht sched n _ hr hfin d ε hε _ hout.symm
    (fun _ => neutron) (fun _ => p) (fun _ => q) (by simpa using hres) (by simpa using hpeak)
  rw [hout] at *
  cases h2 with
  | cons ha hb =>
    rename_i es ess'
    cases hb
    have hes : ([es] : List (List Neutron)).flatten ≠ [] := by
      intro h0
      simp only [List.flatten_cons, List.flatten_nil, List.append_nil] at h0
      subst h0
      have := ha.length_eq
      simp only [List.length_nil, List.length_eq_zero_iff] at this
      exact hsome this
    obtain ⟨rfl, h6, h7⟩ := h5 hes
    refine ⟨es, d', hr, ha, h3, ?_, h7⟩
    simpa using h6

/-! ## A detector -/

/-- A trigger, a neutron that lights eleven pixels of chip 3, the peak of `peakHits`, and in between a pixel far away. -/
def peakShot : List Readout :=
  [⟨3, [.trigger 95, .pixel 100 20 20 74 0, .pixel 100 19 20 42 0, .pixel 100 21 20 42 0, .pixel 101 100 90 7 0, .pixel 100 20 19 42 0,
    .pixel 100 20 21 42 0, .pixel 101 19 19 10 0, .pixel 101 19 21 10 0]⟩,
   ⟨3, [.pixel 101 21 19 10 0, .pixel 101 21 21 10 0, .pixel 102 22 20 10 0, .pixel 102 20 22 10 0]⟩]

def shotNeutrons : List Int := [0, 0, 0, 1, 0, 0, 0, 0, 0, 0, 0, 0]

theorem shot_timely : AllTimelyL ⟨0, 0⟩ (peakShot.flatMap Readout.signals) := by
  norm_num [peakShot, AllTimelyL, Signal.TimelyL, Past.after, PixelOk]

theorem shot_fits : ∀ r ∈ peakShot, r.Fits := by
  intro r hr
  simp only [peakShot, List.mem_cons, List.not_mem_nil, or_false] at hr
  rcases hr with rfl | rfl <;> exact ⟨by decide, by decide⟩

theorem shot_bright : bright (everyReadout ⟨0, 0⟩ peakShot) shotNeutrons = [0] := by decide +kernel

theorem shot_resolved : ResolvedL (everyReadout ⟨0, 0⟩ peakShot) shotNeutrons :=
  ⟨by decide +kernel, by decide +kernel, Or.inl (by decide +kernel), by decide +kernel⟩

theorem shot_samples : samples 10 ((members (everyReadout ⟨0, 0⟩ peakShot) shotNeutrons 0).filter fun h => (10 : ℚ) < h.tot) =
    samples 10 (peakHits.filter fun h => (10 : ℚ) < h.tot) := by
  have hu : ((members (everyReadout ⟨0, 0⟩ peakShot) shotNeutrons 0).filter fun h => (10 : ℚ) < h.tot) =
      [trueHit 3 95 100 20 20 74 0, trueHit 3 95 100 19 20 42 0, trueHit 3 95 100 21 20 42 0, trueHit 3 95 100 20 19 42 0,
        trueHit 3 95 100 20 21 42 0] := by decide +kernel
  rw [hu, peak_samples]
  simp only [samples, List.map_cons, List.map_nil, trueHit, onDetector]
  norm_num

theorem shot_peak : PeakAt (fun _ => (.fin 40, .fin 40)) 0 (members (everyReadout ⟨0, 0⟩ peakShot) shotNeutrons 0) 20 20 := by
  refine ⟨by norm_num, by norm_num, 10, Real.sqrt (1 / (2 * Real.log 2)), 64,
    ⟨[10, 10, 10, 10, 10, 10, 42, 42, 42, 42, 74], by decide +kernel, by decide, 10, 10, rfl, rfl, by norm_num⟩, ?_, ?_, ?_⟩
  rotate_left
  · rw [shot_samples]; exact peak_determined
  · rw [shot_samples]; exact ⟨_, 40, 40, gaussian_best peak_gaussian, rfl, by norm_num, by norm_num⟩
  · rw [shot_samples]; exact peak_gaussian

/-- Of `c102_batches_partial` and `c102_neutrons_partial`. -/
example : (∀ r ∈ peakShot, r.Fits) ∧ AllTimelyL ⟨0, 0⟩ (peakShot.flatMap Readout.signals) ∧
    ¬ StartsTPX ((fun _ => 0#64) ((detectorFile peakShot).length / 8)) ∧
    (∀ h ∈ everyReadout ⟨0, 0⟩ peakShot, ∀ t, h.tof = some t → t.toNat < 2 ^ 22) ∧
    ResolvedL (everyReadout ⟨0, 0⟩ peakShot) shotNeutrons ∧ bright (everyReadout ⟨0, 0⟩ peakShot) shotNeutrons = [0] ∧
    PeakAt (fun _ => (.fin 40, .fin 40)) 0 (members (everyReadout ⟨0, 0⟩ peakShot) shotNeutrons 0) 20 20 ∧
    ∃ n, ((StreamSys.init true (everyReadout ⟨0, 0⟩ peakShot)).run (fun m => decide (m ≤ 12)) n).phase = .finished := by
  refine ⟨shot_fits, shot_timely, by decide +kernel, ?_, shot_resolved, shot_bright, shot_peak, 40, by decide +kernel⟩
  intro h hh t ht
  have : ∀ h ∈ everyReadout ⟨0, 0⟩ peakShot, (h.tof.getD 0).toNat < 2 ^ 22 := by decide +kernel
  have := this h hh
  rwa [ht] at this

/-- C102 is false: the same file of a bright neutron, and an interleaving in which the program writes no event. -/
theorem c102_false (junk : Nat → U64) (hj : ¬ StartsTPX (junk ((detectorFile peakShot).length / 8))) (d : Disk) :
    ∃ hits, streamReader junk (detectorFile peakShot) = .ok (some hits) ∧ bright hits shotNeutrons = [0] ∧ ∃ sched n, Fair sched ∧
      ((StreamSys.init true hits).run sched n).phase = .finished ∧
      streamFinish (fun _ => (.fin 40, .fin 40)) none ((StreamSys.init true hits).run sched n).out d = .ok (d, .aborted "No events to save") :=
  ⟨_, c100_stream_partial junk peakShot shot_fits shot_timely hj, shot_bright,
    c82_false_lost _ _ (by decide +kernel) (by decide +kernel) d⟩

end Verif.Props
