import Verif.Props.DetectorStream
import Verif.Props.DetectorDisplay
import Verif.Props.EndToEnd
import Verif.Props.AnyRun
import Verif.Props.Gui
import Verif.Spec.DetectorViewer

/-!
# C104: the viewer shows the neutrons of a detector
-/

namespace Verif.Props

open Verif Verif.Spec

/-! ## The hits that the viewer sees -/

theorem eq_map_inPeriod {hits K : List Hit} (h : List.Forall₂ InPeriod hits K) : hits = K.map inPeriod := by
  induction h with
  | nil => rfl
  | cons h1 _ ih => rw [List.map_cons, ← ih, h1]; rfl

theorem members_map (f : Hit → Hit) (K : List Hit) (ns : List Int) (n : Int) : members (K.map f) ns n = (members K ns n).map f := by
  unfold members
  rw [List.zip_map_left, List.filter_map, List.map_map, List.map_map]
  rfl

theorem startNs_period (K : List Hit) (ns : List Int) (n : Int) : startNs (K.map inPeriod) ns n = startNs K ns n := by
  unfold startNs
  rw [members_map, List.head?_map, Option.map_map]
  rfl

theorem notEarlier_period (K : List Hit) (ns : List Int) (n : Int) : notEarlier (K.map inPeriod) ns n = notEarlier K ns n := by
  unfold notEarlier
  simp only [startNs_period]

theorem nearBox_period (r : ℚ) (M : List Hit) (h : Hit) : NearBox r (M.map inPeriod) (inPeriod h) ↔ NearBox r M h := by
  unfold NearBox
  rw [List.map_map, List.map_map]
  rfl

theorem matches_period (range : Nat) (r : ℚ) (K : List Hit) (ns : List Int) (n : Int) (h : Hit) :
    Matches range r (K.map inPeriod) ns n (inPeriod h) ↔ Matches range r K ns n h := by
  unfold Matches
  rw [startNs_period, members_map, nearBox_period]
  rfl

theorem coherent_period {range : Nat} {r : ℚ} {most : Nat} {K : List Hit} {ns : List Int} (h : Coherent range r most K ns) :
    Coherent range r most (K.map inPeriod) ns := by
  intro i hi hi' hm
  rw [List.length_map] at hi
  obtain ⟨h1, h2⟩ := h i hi hi' hm
  rw [← List.map_take, List.getElem_map, matches_period, notEarlier_period]
  exact ⟨h1, h2⟩

/-- Telling neutrons apart does not depend on the time of flight. -/
theorem resolved_period {K : List Hit} {ns : List Int} (h : ResolvedL K ns) : ResolvedL (K.map inPeriod) ns := by
  refine ⟨by rw [List.length_map]; exact h.length, h.numbered, ?_, ?_⟩
  · rcases h.coherent with hc | ⟨ho, hc⟩
    · exact Or.inl (coherent_period hc)
    · exact Or.inr ⟨List.pairwise_map.mpr ho, coherent_period hc⟩
  · intro i hi hi' n hn hne
    rw [List.length_map] at hi
    rw [members_map, List.getElem_map, nearBox_period]
    refine (h.apart i hi hi' n hn hne).imp id fun k g hg => ?_
    obtain ⟨g', hg', rfl⟩ := List.mem_map.mp hg
    exact k g' hg'

theorem everyHit_time {chip : Int} (p : Past) (sigs : List Signal) : ∀ h ∈ everyHit chip p sigs, ∃ t ∈ pixelTimes sigs,
    h.spidertime = BitVec.ofNat 64 t := by
  induction sigs generalizing p with
  | nil => simp [everyHit]
  | cons s ss ih =>
    intro h hh
    cases s with
    | trigger t => obtain ⟨u, hu, e⟩ := ih _ h hh; exact ⟨u, hu, e⟩
    | clock t => obtain ⟨u, hu, e⟩ := ih _ h hh; exact ⟨u, hu, e⟩
    | pixel t col row tot ftoa =>
      have e : pixelTimes (.pixel t col row tot ftoa :: ss) = t :: pixelTimes ss := rfl
      rw [e]
      rcases List.mem_cons.mp hh with rfl | hh
      · exact ⟨t, by simp, rfl⟩
      · obtain ⟨u, hu, e⟩ := ih _ h hh
        exact ⟨u, by simp [hu], e⟩

theorem everyReadout_time (p : Past) (rs : List Readout) : ∀ h ∈ everyReadout p rs, ∃ t ∈ pixelTimes (rs.flatMap Readout.signals),
    h.spidertime = BitVec.ofNat 64 t := by
  induction rs generalizing p with
  | nil => simp [everyReadout]
  | cons r rs ih =>
    intro h hh
    have e : pixelTimes ((r :: rs).flatMap Readout.signals) = pixelTimes r.signals ++ pixelTimes (rs.flatMap Readout.signals) := by
      rw [List.flatMap_cons, pixelTimes, List.flatMap_append]; rfl
    rw [e]
    rcases List.mem_append.mp hh with hh | hh
    · obtain ⟨t, ht, e⟩ := everyHit_time p _ h hh
      exact ⟨t, by simp [ht], e⟩
    · obtain ⟨t, ht, e⟩ := ih _ h hh
      exact ⟨t, by simp [ht], e⟩

/-- A file of a detector that the viewer can make sense of: at least one pixel fires, successive ones less than 2^29 ticks (13.4 s) apart
and in the first 2^48 ticks (81 days), and the neutrons can be told apart. -/
structure Viewable (rs : List Readout) (neutron : List Int) : Prop where
  fits : ∀ r ∈ rs, r.Fits
  pixels : ∀ r ∈ rs, ∀ s ∈ r.signals, SignalOk s
  slow : SlowSteps 0 (pixelTimes (rs.flatMap Readout.signals))
  early : ∀ u ∈ pixelTimes (rs.flatMap Readout.signals), u < 2 ^ 48
  some : everyReadout ⟨0, 0⟩ rs ≠ []
  few : (everyReadout ⟨0, 0⟩ rs).length ≤ 2 ^ 31
  resolved : ResolvedL (everyReadout ⟨0, 0⟩ rs) neutron

/-- The neutrons of a file, each with its hits, that have some time over threshold. -/
def viewedNeutrons (rs : List Readout) (neutron : List Int) : List (List Hit) := visible 1 (everyReadout ⟨0, 0⟩ rs) neutron

theorem viewable_hits {rs : List Readout} {neutron : List Int} (h : Viewable rs neutron) :
    readTimepix3RawData (detectorFile rs) = .ok ((everyReadout ⟨0, 0⟩ rs).map inPeriod) ∧
    ∀ x ∈ (everyReadout ⟨0, 0⟩ rs).map inPeriod, Decoded x ∧ x.spidertime.toNat < 2 ^ 48 := by
  have h1 := c56_read (rs.map Readout.chunk) (by simp only [List.mem_map]; rintro c ⟨r, hr, rfl⟩; exact (readout_fits (h.fits r hr)).1)
  have h2 := eq_map_inPeriod (readouts_turns rs h.fits h.pixels ⟨0, 0⟩ 0 (by norm_num) h.slow
    (fun u hu => (h.early u hu).trans (by norm_num)))
  have hd := altRun_decoded ((chunkPackets (rs.map Readout.chunk)).filter fun p => IsHitPacket p.2) (turns 0)
  rw [h2] at hd
  refine ⟨h1.trans (congrArg Res.ok h2), fun x hx => ⟨hd x hx, ?_⟩⟩
  obtain ⟨y, hy, rfl⟩ := List.mem_map.mp hx
  obtain ⟨t, ht, e⟩ := everyReadout_time ⟨0, 0⟩ rs y hy
  have := h.early t ht
  show y.spidertime.toNat < _
  rw [e, BitVec.toNat_ofNat]
  omega

/-- One file. -/
theorem view_file (solve : List GaussRow → F64 × F64) (cos sin : F64) (g : Gui) (ht : g.timer = false)
    (hp : g.alg.params = Gui.init.alg.params) (hm : g.alg.method = Gui.init.alg.method) {rs : List Readout} {neutron : List Int}
    (h : Viewable rs neutron) :
    ∃ g', g.readFile solve cos sin (.file (detectorFile rs)) = .ok g' ∧ g'.timer = false ∧ g'.alg.params = g.alg.params ∧
      g'.alg.method = g.alg.method ∧ g'.alg.labels = neutron ∧ Gui.addEvents cos sin g.histo g'.events = .ok g'.histo ∧
      List.Forall₂ (fun M e => IsEventOf 1 (M.map inPeriod) e) (viewedNeutrons rs neutron) g'.events := by
  obtain ⟨hread, hd⟩ := viewable_hits h
  have hres := resolved_period h.resolved
  have hne : (everyReadout ⟨0, 0⟩ rs).map inPeriod ≠ [] := by simpa using h.some
  have hsize : ((everyReadout ⟨0, 0⟩ rs).map inPeriod).length ≤ 2 ^ 31 := by rw [List.length_map]; exact h.few
  unfold viewedNeutrons
  have hvis : visible 1 ((everyReadout ⟨0, 0⟩ rs).map inPeriod) neutron = (visible 1 (everyReadout ⟨0, 0⟩ rs) neutron).map (List.map inPeriod) := by
    unfold visible
    rw [List.filter_map, List.filter_map, List.map_map]
    simp only [members_map]
    refine congrArg _ (List.filter_congr fun n _ => ?_)
    simp only [Function.comp_apply, List.length_map]
    have e : total Hit.tot ((members (everyReadout ⟨0, 0⟩ rs) neutron n).map inPeriod) =
        total Hit.tot (members (everyReadout ⟨0, 0⟩ rs) neutron n) := by
      unfold total
      rw [List.map_map]
      rfl
    rw [e]
  generalize (everyReadout ⟨0, 0⟩ rs).map inPeriod = hits at hread hd hres hne hsize hvis
  obtain ⟨o, ho⟩ : ∃ o, g.alg.legacyFit hits = .ok o := by
    rcases fitWith_ok (by decide : 0 < legacyClusters) g.alg hits with h | ⟨-, h, hm, hno⟩
    · exact h
    · exact absurd hno (ns_wide h ((hd h hm).2.trans (by norm_num)))
  have hpos : ∀ h ∈ hits, |h.x| ≤ 2 ^ 20 ∧ |h.y| ≤ 2 ^ 20 := by
    intro x hx
    obtain ⟨hd', -⟩ := hd x hx
    rw [abs_of_nonneg hd'.x.1, abs_of_nonneg hd'.y.1]
    have := hd'.x.2
    have := hd'.y.2
    omega
  have h5 : g.alg.params.feature = .fin 5 := by
    rw [hp]
    show F64.ofRat 5 = _
    have := F64.ofRat_int (n := 5) (by norm_num)
    simpa using this
  have h75 : g.alg.params.range = 75 := by rw [hp]; rfl
  have h1 : g.alg.params.minSize = 1 := by rw [hp]; rfl
  have hl : o.labels = neutron := by
    rcases hres.coherent with hc | ⟨hi, hc⟩
    · exact c83_legacy _ o hits ho 5 h5 (by norm_num [abs_le]) (by rw [h75]; norm_num) (fun x hx => (hd x hx).2) hpos neutron hres.length
        hres.numbered 3 (Or.inl le_rfl) (by rw [h75]; exact hc) (by rw [h75]; exact hres.apart)
    · exact c83_legacy _ o hits ho 5 h5 (by norm_num [abs_le]) (by rw [h75]; norm_num) (fun x hx => (hd x hx).2) hpos neutron hres.length
        hres.numbered 4 (Or.inr ⟨hi, le_rfl⟩) (by rw [h75]; exact hc) (by rw [h75]; exact hres.apart)
  obtain ⟨k, events, hk, he, hev⟩ := c71_events_partial solve g.alg o hits ho hm (fun x hx => (hd x hx).1) hsize hne
  obtain ⟨histo, hh⟩ := addEvents_returns cos sin events g.histo
  have hpm := (fitWith_inv (by decide) ho).choose_spec.choose_spec.choose_spec.2
  refine ⟨⟨false, o, events, histo⟩, ?_, rfl, hpm.1, hpm.2.1, hl, hh, ?_⟩
  · simp only [Gui.readFile, ht, Bool.false_eq_true, if_false, bind, Res.bind, hread, ho, he, hh]
  · have hk' : ∀ l : Int, l ∈ neutron.toFinset ↔ l ∈ Finset.Ico (0 : Int) k := by
      intro l
      rw [List.mem_toFinset, ← hl, hk, Finset.mem_Ico]
    have hcard : neutron.toFinset.card = k := by
      rw [Finset.ext hk', Int.card_Ico]
      omega
    rw [hl, h1] at hev
    rw [← List.forall₂_map_left_iff (R := IsEventOf 1) (f := List.map inPeriod), ← hvis]
    unfold visible
    rw [hcard, List.filter_map, List.forall₂_map_left_iff]
    exact hev

/-! ## The picture -/

theorem view_decoded {rs : List Readout} {neutron : List Int} (h : Viewable rs neutron) {M : List Hit} (hM : M ∈ viewedNeutrons rs neutron) :
    (∀ x ∈ M, (0 ≤ x.x ∧ x.x < 1024) ∧ (0 ≤ x.y ∧ x.y < 1024) ∧ 0 ≤ x.tot) ∧ 0 < total Hit.tot M := by
  obtain ⟨-, hd⟩ := viewable_hits h
  unfold viewedNeutrons visible at hM
  obtain ⟨h1, h2⟩ := List.mem_filter.mp hM
  obtain ⟨n, -, rfl⟩ := List.mem_map.mp h1
  have h3 : ∀ x ∈ members (everyReadout ⟨0, 0⟩ rs) neutron (n : Int), (0 ≤ x.x ∧ x.x < 1024) ∧ (0 ≤ x.y ∧ x.y < 1024) ∧ 0 ≤ x.tot := by
    intro x hx
    have hx' : x ∈ everyReadout ⟨0, 0⟩ rs := by
      unfold members at hx
      obtain ⟨q, hq, rfl⟩ := List.mem_map.mp hx
      exact (List.of_mem_zip (List.mem_filter.mp hq).1).1
    obtain ⟨hx1, -⟩ := hd (inPeriod x) (List.mem_map_of_mem hx')
    exact ⟨hx1.x, hx1.y, hx1.tot.1⟩
  refine ⟨h3, ?_⟩
  simp only [decide_eq_true_eq] at h2
  have h0 : 0 ≤ total Hit.tot (members (everyReadout ⟨0, 0⟩ rs) neutron (n : Int)) :=
    List.sum_nonneg (by simp only [List.mem_map]; rintro _ ⟨x, hx, rfl⟩; exact (h3 x hx).2.2)
  omega

/-- An event lies in the cell in which its neutron belongs, unless this is very near to the border. -/
theorem event_cell {cs sn : ℚ} (hcs : |cs| ≤ 1) (hsn : |sn| ≤ 1) {M : List Hit} {e : Neutron}
    (hM : (∀ x ∈ M, (0 ≤ x.x ∧ x.x < 1024) ∧ (0 ≤ x.y ∧ x.y < 1024) ∧ 0 ≤ x.tot) ∧ 0 < total Hit.tot M)
    (he : IsEventOf 1 (M.map inPeriod) e) (i j : Nat) :
    (WithinCell cs sn (1 / 2 ^ 29) i j M → InCell (.fin cs) (.fin sn) i j e) ∧
    (InCell (.fin cs) (.fin sn) i j e → WithinCell cs sn (-(1 / 2 ^ 29)) i j M) := by
  obtain ⟨x0, x1⟩ := totMean_le Hit.x M (fun h hh => ⟨(hM.1 h hh).1, (hM.1 h hh).2.2⟩) hM.2
  obtain ⟨y0, y1⟩ := totMean_le Hit.y M (fun h hh => ⟨(hM.1 h hh).2.1, (hM.1 h hh).2.2⟩) hM.2
  have tm : ∀ f : Hit → Int, (∀ h, f (inPeriod h) = f h) → totMean f (M.map inPeriod) = totMean f M := by
    intro f hf
    unfold totMean total
    rw [List.map_map, List.map_map]
    have e1 : (fun h => f h * h.tot) ∘ inPeriod = fun h => f h * h.tot := by funext h; simp only [Function.comp_apply, hf]; rfl
    have e2 : Hit.tot ∘ inPeriod = Hit.tot := rfl
    rw [e1, e2]
  obtain ⟨x, ex, bx⟩ := he.x
  obtain ⟨y, ey, b_y⟩ := he.y
  rw [tm Hit.x (fun _ => rfl), Int.cast_one, one_mul, abs_of_nonneg x0] at bx
  rw [tm Hit.y (fun _ => rfl), Int.cast_one, one_mul, abs_of_nonneg y0] at b_y
  have nx : |x - totMean Hit.x M| ≤ 1 / 2 ^ 32 := bx.trans (by nlinarith)
  have ny : |y - totMean Hit.y M| ≤ 1 / 2 ^ 32 := b_y.trans (by nlinarith)
  have lx : |x| ≤ (4088 : ℤ) := by
    rw [abs_le] at nx ⊢
    push_cast
    constructor <;> linarith [nx.1, nx.2]
  have ly : |y| ≤ (4088 : ℤ) := by
    rw [abs_le] at ny ⊢
    push_cast
    constructor <;> linarith [ny.1, ny.2]
  obtain ⟨q1, e1, -, n1⟩ := turned_near lx ly hcs (by rwa [abs_neg] : |-sn| ≤ 1) nx ny
  obtain ⟨q2, e2, -, n2⟩ := turned_near lx ly hsn hcs nx ny
  have hneg : F64.sub (F64.mul (.fin x) (.fin cs)) (F64.mul (.fin y) (.fin sn)) =
      F64.add (F64.mul (.fin x) (.fin cs)) (F64.mul (.fin y) (.fin (-sn))) := by
    unfold F64.sub
    rw [mul_neg_sin ly hsn]
  rw [mul_neg, ← sub_eq_add_neg] at n1
  change |q1 - viewX cs sn M| ≤ _ at n1
  change |q2 - viewY cs sn M| ≤ _ at n2
  rw [abs_le] at n1 n2
  unfold InCell WithinCell
  rw [ex, ey, hneg, e1, e2]
  constructor
  · rintro ⟨a1, a2, a3, a4⟩
    exact ⟨q1, q2, rfl, rfl, by linarith [n1.1, n1.2], by linarith [n1.1, n1.2], by linarith [n2.1, n2.2], by linarith [n2.1, n2.2]⟩
  · rintro ⟨x', y', h1, h2, a1, a2, a3, a4⟩
    injection h1 with h1
    injection h2 with h2
    subst h1 h2
    exact ⟨by linarith [n1.1, n1.2], by linarith [n1.1, n1.2], by linarith [n2.1, n2.2], by linarith [n2.1, n2.2]⟩

theorem cells_between {cs sn : ℚ} (hcs : |cs| ≤ 1) (hsn : |sn| ≤ 1) {Ms : List (List Hit)} {es : List Neutron}
    (hM : ∀ M ∈ Ms, (∀ x ∈ M, (0 ≤ x.x ∧ x.x < 1024) ∧ (0 ≤ x.y ∧ x.y < 1024) ∧ 0 ≤ x.tot) ∧ 0 < total Hit.tot M)
    (he : List.Forall₂ (fun M e => IsEventOf 1 (M.map inPeriod) e) Ms es) (i j : Nat) :
    neutronsIn cs sn (1 / 2 ^ 29) i j Ms ≤ cellCount (.fin cs) (.fin sn) i j es ∧
    cellCount (.fin cs) (.fin sn) i j es ≤ neutronsIn cs sn (-(1 / 2 ^ 29)) i j Ms := by
  classical
  unfold neutronsIn cellCount
  induction he with
  | nil => simp
  | cons h1 _ ih =>
    obtain ⟨i1, i2⟩ := ih fun M h => hM M (by simp [h])
    obtain ⟨k1, k2⟩ := event_cell hcs hsn (hM _ (by simp)) h1 i j
    rw [List.countP_cons, List.countP_cons, List.countP_cons]
    simp only [decide_eq_true_eq]
    constructor
    · refine add_le_add i1 ?_
      split_ifs with a b
      · exact le_rfl
      · exact absurd (k1 a) b
      · exact Nat.zero_le _
      · exact le_rfl
    · refine add_le_add i2 ?_
      split_ifs with a b
      · exact le_rfl
      · exact absurd (k2 a) b
      · exact Nat.zero_le _
      · exact le_rfl

/-! ## C104 -/

/-- C104, the events: after any actions without a cancelled dialog for reading, the file of a detector whose neutrons can be told apart is
read, and the events are exactly one for each neutron with some time over threshold, in order, at the weighted mean of its hits, with their
number and total.  Missing: the time of flight counts from the last multiple of 666667 ticks (`c104_false_tof`). -/
theorem c104_events_partial (solve : List GaussRow → F64 × F64) (cos sin : F64) (as : List GuiAction)
    (r : Gui × List GuiOutput) (hr : Gui.init.run solve cos sin as = .ok r) (ha : ∀ a ∈ as, ¬ IsCancelledRead a)
    (rs : List Readout) (neutron : List Int) (h : Viewable rs neutron) :
    ∃ g, r.1.readFile solve cos sin (.file (detectorFile rs)) = .ok g ∧ g.timer = false ∧ g.alg.labels = neutron ∧
      List.Forall₂ (fun M e => IsEventOf 1 (M.map inPeriod) e) (viewedNeutrons rs neutron) g.events := by
  obtain ⟨hp, hm⟩ := run_alg hr
  obtain ⟨g, h1, h2, -, -, h5, -, h7⟩ := view_file solve cos sin r.1 (run_timer rfl ha hr) hp hm h
  exact ⟨g, h1, h2, h5, h7⟩

theorem neutronsIn_append (cs sn δ : ℚ) (i j : Nat) (a b : List (List Hit)) :
    neutronsIn cs sn δ i j (a ++ b) = neutronsIn cs sn δ i j a + neutronsIn cs sn δ i j b := by
  unfold neutronsIn
  rw [List.countP_append]

theorem view_files (solve : List GaussRow → F64 × F64) {cs sn : ℚ} (hcs : |cs| ≤ 1) (hsn : |sn| ≤ 1) (L : List (List Readout × List Int))
    (hL : ∀ p ∈ L, Viewable p.1 p.2) (g : Gui) (ht : g.timer = false) (hp : g.alg.params = Gui.init.alg.params)
    (hm : g.alg.method = Gui.init.alg.method) (c : Nat → Nat → Nat) (N : Nat) (hs : Shows g.histo c) (hb : ∀ i j, c i j ≤ N)
    (hN : N + (L.flatMap fun p => viewedNeutrons p.1 p.2).length ≤ 2 ^ 53) :
    ∃ g', g.run solve (.fin cs) (.fin sn) (L.map fun p => .read (.file (detectorFile p.1))) = .ok (g', []) ∧ g'.timer = false ∧
      ∀ i j, i < 512 → j < 512 → ∃ n : Nat, g'.histo (512 * i + j) = .fin n ∧
        c i j + neutronsIn cs sn (1 / 2 ^ 29) i j (L.flatMap fun p => viewedNeutrons p.1 p.2) ≤ n ∧
        n ≤ c i j + neutronsIn cs sn (-(1 / 2 ^ 29)) i j (L.flatMap fun p => viewedNeutrons p.1 p.2) := by
  induction L generalizing g c N with
  | nil => exact ⟨g, rfl, ht, fun i j hi hj => ⟨c i j, hs i j hi hj, by simp [neutronsIn], by simp [neutronsIn]⟩⟩
  | cons p L ih =>
    rw [List.flatMap_cons, List.length_append] at hN
    obtain ⟨g1, a1, a2, a3, a4, -, a6, a7⟩ := view_file solve (.fin cs) (.fin sn) g ht hp hm (hL p (by simp))
    have hlen := a7.length_eq
    obtain ⟨h', e', s'⟩ := addEvents_ok (.fin cs) (.fin sn) g1.events g.histo c N hs hb (by omega)
    rw [a6] at e'
    injection e' with e'
    subst e'
    have hc := fun i j => cells_between hcs hsn (fun M hM => view_decoded (hL p (by simp)) hM) a7 i j
    obtain ⟨g2, b1, b2, b3⟩ := ih (fun q hq => hL q (by simp [hq])) g1 a2 (a3.trans hp) (a4.trans hm) _ (N + g1.events.length) s'
      (fun i j => add_le_add (hb i j) List.countP_le_length) (by omega)
    refine ⟨g2, ?_, b2, fun i j hi hj => ?_⟩
    · rw [List.map_cons]
      simp only [Gui.run, Gui.act, a1, bind, Res.bind]
      rw [b1]
      rfl
    · obtain ⟨n, k1, k2, k3⟩ := b3 i j hi hj
      obtain ⟨c1, c2⟩ := hc i j
      rw [List.flatMap_cons, neutronsIn_append, neutronsIn_append]
      exact ⟨n, k1, by omega, by omega⟩

/-- C104, the picture: the files of detectors are read one after the other, and then every cell of the picture holds the number of all
their neutrons that belong there, turned by the angle; only a neutron less than 2^-29 pixels from the border of a cell may be counted in
the neighbour. -/
theorem c104_picture (solve : List GaussRow → F64 × F64) (cs sn : ℚ) (hcs : |cs| ≤ 1) (hsn : |sn| ≤ 1)
    (L : List (List Readout × List Int)) (hL : ∀ p ∈ L, Viewable p.1 p.2)
    (hN : (L.flatMap fun p => viewedNeutrons p.1 p.2).length ≤ 2 ^ 53) :
    ∃ g, Gui.init.run solve (.fin cs) (.fin sn) (L.map fun p => .read (.file (detectorFile p.1))) = .ok (g, []) ∧ g.timer = false ∧
      ∀ i j, i < 512 → j < 512 → ∃ n : Nat, g.histo (512 * i + j) = .fin n ∧
        neutronsIn cs sn (1 / 2 ^ 29) i j (L.flatMap fun p => viewedNeutrons p.1 p.2) ≤ n ∧
        n ≤ neutronsIn cs sn (-(1 / 2 ^ 29)) i j (L.flatMap fun p => viewedNeutrons p.1 p.2) := by
  have := view_files solve hcs hsn L hL Gui.init rfl rfl rfl (fun _ _ => 0) 0 init_shows (fun _ _ => le_rfl) (by omega)
  simpa only [Nat.zero_add] using this

/-! ## Where it fails -/

/-- A pixel in the corner of chip 1, 10 ticks after the trigger. -/
def cornerShot : List Readout := [⟨1, [.trigger 1000, .pixel 1010 0 0 5 6]⟩]

theorem corner_hits : everyReadout ⟨0, 0⟩ cornerShot = [⟨515, 515, 5, 1010, 6, some 10#32, 1010#64⟩] := by decide +kernel

theorem corner_viewable : Viewable cornerShot [0] := by
  refine ⟨?_, ?_, ?_, by decide, by rw [corner_hits]; simp, by rw [corner_hits]; simp, ?_⟩
  · simp only [cornerShot, List.mem_singleton, forall_eq]
    exact ⟨by decide, by decide +kernel⟩
  · simp only [cornerShot, forall_eq, List.mem_cons, List.not_mem_nil, or_false]
    rintro s (rfl | rfl)
    · trivial
    · norm_num [SignalOk, PixelOk]
  · exact .cons _ _ _ (by norm_num) (by norm_num) (.nil _)
  · rw [corner_hits]
    exact ⟨rfl, by decide, Or.inl (by decide +kernel), by decide +kernel⟩

theorem corner_neutrons : viewedNeutrons cornerShot [0] = [[⟨515, 515, 5, 1010, 6, some 10#32, 1010#64⟩]] := by decide +kernel

/-- C104 is false at the edge: a neutron in column 515 of the detector becomes an event, but the picture has only 512 columns and stays
empty (with the angle of the program). -/
theorem c104_false_edge (solve : List GaussRow → F64 × F64) : Viewable cornerShot [0] ∧
    ∃ g, Gui.init.run solve rotCos rotSin [.read (.file (detectorFile cornerShot))] = .ok (g, []) ∧
      ∀ i j, i < 512 → j < 512 → g.histo (512 * i + j) = .fin 0 := by
  refine ⟨corner_viewable, ?_⟩
  obtain ⟨g, h1, -, h3⟩ := c104_picture solve (4502913707333573 / 4503599627370496) (-2515156836085391 / 144115188075855872)
    (by rw [abs_le]; constructor <;> norm_num) (by rw [abs_le]; constructor <;> norm_num) [(cornerShot, [0])]
    (by simpa using corner_viewable) (by simp [corner_neutrons])
  refine ⟨g, h1, fun i j hi hj => ?_⟩
  obtain ⟨n, e, -, hn⟩ := h3 i j hi hj
  have h0 : neutronsIn (4502913707333573 / 4503599627370496) (-2515156836085391 / 144115188075855872) (-(1 / 2 ^ 29)) i j
      [[⟨515, 515, 5, 1010, 6, some 10#32, 1010#64⟩]] = 0 := by
    unfold neutronsIn
    rw [List.countP_eq_zero]
    simp only [List.mem_singleton, forall_eq, decide_eq_true_eq]
    rintro ⟨-, h, -⟩
    have hi' : (i : ℚ) + 1 ≤ 512 := by exact_mod_cast hi
    have hv : viewX (4502913707333573 / 4503599627370496) (-2515156836085391 / 144115188075855872)
        [⟨515, 515, 5, 1010, 6, some 10#32, 1010#64⟩] = 515 * (4502913707333573 / 4503599627370496) +
          515 * (2515156836085391 / 144115188075855872) := by
      norm_num [viewX, totMean, total]
    rw [hv] at h
    norm_num at h
    linarith
  rw [List.flatMap_cons, List.flatMap_nil, List.append_nil, corner_neutrons, h0] at hn
  obtain rfl : n = 0 := by omega
  rw [e]
  simp

/-- C104 is false for the time of flight: the event of this neutron has 1010 instead of 10 ticks. -/
theorem c104_false_tof (solve : List GaussRow → F64 × F64) (cos sin : F64) :
    (viewedNeutrons cornerShot [0]).map (fun M => M.map Hit.tof) = [[some 10#32]] ∧
    ∃ g e, Gui.init.readFile solve cos sin (.file (detectorFile cornerShot)) = .ok g ∧ g.events = [e] ∧ Approx (1 / 2 ^ 53) e.tof 1010 := by
  refine ⟨by rw [corner_neutrons]; rfl, ?_⟩
  obtain ⟨g, h1, -, -, h4⟩ := c104_events_partial solve cos sin [] (Gui.init, []) rfl (by simp) cornerShot [0] corner_viewable
  rw [corner_neutrons] at h4
  generalize hev : g.events = evs at h4
  cases h4 with
  | cons a b =>
    cases b
    refine ⟨g, _, h1, hev, ?_⟩
    have := a.tof
    simpa [total, tofOf, inPeriod] using this

/-! ## A detector to which the theorems apply -/

/-- Of `c104_events_partial` and `c104_picture`: the two neutrons of `peakShot`, in two files. -/
example : (∀ p ∈ [(peakShot, shotNeutrons), (cornerShot, [0])], Viewable p.1 p.2) ∧
    (viewedNeutrons peakShot shotNeutrons).map List.length = [11, 1] ∧
    neutronsIn (4502913707333573 / 4503599627370496) (-2515156836085391 / 144115188075855872) (1 / 2 ^ 29) 20 19
      (viewedNeutrons peakShot shotNeutrons) = 1 := by
  refine ⟨?_, by decide +kernel, by decide +kernel⟩
  simp only [List.mem_cons, List.not_mem_nil, or_false]
  rintro p (rfl | rfl)
  · refine ⟨shot_fits, ?_, ?_, by decide, by decide +kernel, by decide +kernel, shot_resolved⟩
    · intro r hr s hs
      revert s
      simp only [peakShot, List.mem_cons, List.not_mem_nil, or_false] at hr
      rcases hr with rfl | rfl <;> simp [SignalOk, PixelOk]
    · have : pixelTimes (peakShot.flatMap Readout.signals) = [100, 100, 100, 101, 100, 100, 101, 101, 101, 101, 102, 102] := rfl
      rw [this]
      repeat first | exact .nil _ | refine .cons _ _ _ (by norm_num) (by norm_num) ?_
  · exact corner_viewable

end Verif.Props
