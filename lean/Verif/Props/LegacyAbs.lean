import Verif.Model.LegacyAbs
import Verif.Props.Peak

/-! # Clusters and events of the legacy library (C69-C71) -/

namespace Verif.Props

open Verif Verif.Spec

/-! ## C69: the clusters of the legacy library -/

/-- C69: one label per hit, the labels are exactly `0 .. k-1`, and a label first occurs after all smaller ones. -/
theorem c69_labels (o o' : AbsObj) (data : List Hit) (h : o.legacyFit data = .ok o') :
    o'.labels.length = data.length ∧ (∃ k : Nat, ∀ l : Int, l ∈ o'.labels ↔ 0 ≤ l ∧ l < k) ∧
    ∀ i (hi : i < o'.labels.length) (l : Int), 0 ≤ l → l < o'.labels[i] →
      ∃ j, ∃ hj : j < i, o'.labels[j] = l :=
  fitWith_gapless (by decide) o o' data h

/-- C69: `fit` returns for every hit list with arrival times up to 737869762948382016 clock ticks (584 years). -/
theorem c69_returns (o : AbsObj) (data : List Hit) (ht : ∀ h ∈ data, h.spidertime.toNat ≤ 737869762948382016) :
    ∃ o', o.legacyFit data = .ok o' :=
  fitWith_returns (by decide) o data ht

/-- C69: a hit differs from the first hit of its cluster by at most the time range. -/
theorem c69_time (o o' : AbsObj) (data : List Hit) (h : o.legacyFit data = .ok o')
    (ht : ∀ h ∈ data, h.spidertime.toNat < 2 ^ 48) (hr : o.params.range < 2 ^ 64)
    (i j : Nat) (hi : i < data.length) (hj : j < data.length) (hi' : i < o'.labels.length)
    (hj' : j < o'.labels.length) (hsame : o'.labels[i] = o'.labels[j])
    (hfirst : ∀ m (hm : m < j), o'.labels[m] ≠ o'.labels[j]) :
    |arrivalNs data[i] - arrivalNs data[j]| ≤ o.params.range :=
  fitWith_first (by decide) o o' data h ht hr i j hi hj hi' hj' hsame hfirst

/-- C69: a hit that is not the first of its cluster lies within the search radius of the bounding box of the cluster's
earlier hits; radii are multiples of 1/1024. -/
theorem c69_connected (o o' : AbsObj) (data : List Hit) (h : o.legacyFit data = .ok o') (k : ℤ)
    (hp : o.params.feature = .fin (k / 1024)) (hk : |k| ≤ 2 ^ 40)
    (hb : ∀ h ∈ data, |h.x| ≤ 2 ^ 20 ∧ |h.y| ≤ 2 ^ 20) (i : Nat) (hi : i < data.length)
    (hi' : i < o'.labels.length) (j : Nat) (hj : j < i) (hsame : o'.labels[j] = o'.labels[i]) :
    NearBox (k / 1024) (members (data.take i) (o'.labels.take i) o'.labels[i]) data[i] :=
  fitWith_connected (by decide) o o' data h k hp hk hb i hi hi' j hj hsame

/-- C69 for any radius: the rounding of the box edges adds at most 2^-32 pixel. -/
theorem c69_rounded (o o' : AbsObj) (data : List Hit) (h : o.legacyFit data = .ok o') (r : ℚ)
    (hp : o.params.feature = .fin r) (hr : |r| ≤ 2 ^ 20)
    (hb : ∀ h ∈ data, |h.x| ≤ 2 ^ 20 ∧ |h.y| ≤ 2 ^ 20) (i : Nat) (hi : i < data.length)
    (hi' : i < o'.labels.length) (j : Nat) (hj : j < i) (hsame : o'.labels[j] = o'.labels[i]) :
    NearBox (r + 1 / 2 ^ 32) (members (data.take i) (o'.labels.take i) o'.labels[i]) data[i] :=
  fitWith_rounded (by decide) o o' data h r hp hr hb i hi hi' j hj hsame

/-- C69: the labels of a prefix of the hits are the prefix of the labels. -/
theorem c69_online (o o1 : AbsObj) (pre post : List Hit) (h : o.legacyFit (pre ++ post) = .ok o1) :
    ∃ o2, o.legacyFit pre = .ok o2 ∧ o2.labels = o1.labels.take pre.length :=
  fitWith_online (by decide) o o1 pre post h

/-- C69: the label of every hit is the number of its burst, for any number of bursts. -/
theorem c69_bursts (o o' : AbsObj) (bursts : List (List Hit)) (h : o.legacyFit bursts.flatten = .ok o') (r : ℚ)
    (hp : o.params.feature = .fin r) (hr : |r| ≤ 2 ^ 900) (hrange : o.params.range < 2 ^ 64)
    (ht : ∀ h ∈ bursts.flatten, h.spidertime.toNat < 2 ^ 48)
    (hpos : ∀ h ∈ bursts.flatten, |h.x| ≤ 2 ^ 53 ∧ |h.y| ≤ 2 ^ 53)
    (hb : ∀ b ∈ bursts, IsBurst o.params.range r b) (hsep : Separated o.params.range bursts) :
    o'.labels = burstNumbers 0 bursts :=
  fitWith_bursts (by decide) o o' bursts h r hp hr hrange ht hpos hb hsep

/-- The parameters of the display program. -/
def exParams : AbsParams := ⟨.fin 5, 1, 75⟩

/-- Two hits of one cluster and one of another: the hypotheses of C69 are met. -/
example : ∃ o', (AbsObj.new exParams).legacyFit exHits = .ok o' ∧ o'.labels = [0, 1, 0] ∧
    (∀ h ∈ exHits, h.spidertime.toNat < 2 ^ 48 ∧ |h.x| ≤ 2 ^ 20 ∧ |h.y| ≤ 2 ^ 20) ∧
    exParams.feature = .fin ((5120 : ℤ) / 1024) := by
  obtain ⟨o', h⟩ := c69_returns (AbsObj.new exParams) exHits (by decide)
  refine ⟨o', h, ?_, by decide, by decide +kernel⟩
  have e : ((AbsObj.new exParams).legacyFit exHits).bind (fun o => .ok o.labels) = .ok [0, 1, 0] := by decide +kernel
  rw [h] at e
  simpa [Res.bind] using e

/-- Ten bursts, more than the four open clusters. -/
example : ∃ o', (AbsObj.new exParams).legacyFit exBursts.flatten = .ok o' ∧
    o'.labels = [0, 0, 1, 1, 2, 2, 3, 3, 4, 4, 5, 5, 6, 6, 7, 7, 8, 8, 9, 9] := by
  obtain ⟨o', h⟩ := c69_returns (AbsObj.new exParams) exBursts.flatten (by decide)
  refine ⟨o', h, ?_⟩
  have h5 : |(5 : ℚ)| ≤ 2 ^ 900 := by
    rw [abs_of_pos (by norm_num)]
    calc (5 : ℚ) ≤ 2 ^ 3 := by norm_num
      _ ≤ 2 ^ 900 := pow_le_pow_right₀ (by norm_num) (by norm_num)
  rw [c69_bursts _ o' exBursts h 5 rfl h5 (by simp [AbsObj.new, exParams]) (by decide) (by decide) exBursts_ok.1 exBursts_ok.2]
  decide

/-! ## C70: the clusters of the two libraries -/

theorem placeIn_append_some {p : AbsParams} {h : Hit} (A E : List Slot) {r : List Slot × Int}
    (ha : placeIn p h A = .ok (some r)) : placeIn p h (A ++ E) = .ok (some (r.1 ++ E, r.2)) := by
  induction A generalizing r with
  | nil => simp [placeIn] at ha
  | cons a A ih =>
    simp only [List.cons_append, placeIn] at ha ⊢
    split_ifs at ha ⊢ with h1 h2
    · cases ho : openSlot a.label h <;> rw [ho] at ha <;> simp at ha ⊢
      subst ha; simp
    · simp at ha; subst ha; simp
    · cases hp : placeIn p h A with
      | ok r' =>
        cases r' with
        | none => rw [hp] at ha; simp at ha
        | some r' =>
          rw [hp] at ha
          simp only [Res.ok.injEq, Option.some.injEq] at ha
          subst ha
          rw [ih hp]
          simp
      | throws e => rw [hp] at ha; simp at ha
      | ub u => rw [hp] at ha; simp at ha

theorem placeIn_append_none {p : AbsParams} {h : Hit} (A E : List Slot) (e : Slot) (he : e.size = 0)
    (ha : placeIn p h A = .ok none) (r : Option (List Slot × Int)) (hr : placeIn p h (A ++ e :: E) = .ok r) :
    ∃ S, r = some (S, e.label) := by
  induction A generalizing r with
  | nil =>
    simp only [List.nil_append, placeIn, if_pos he] at hr
    cases ho : openSlot e.label h <;> rw [ho] at hr <;> simp at hr
    exact ⟨_, hr.symm⟩
  | cons a A ih =>
    simp only [List.cons_append, placeIn] at ha hr
    split_ifs at ha hr with h1 h2
    · cases ho : openSlot a.label h <;> rw [ho] at ha <;> simp at ha
    · simp at ha
    · cases hp : placeIn p h A with
      | ok r' =>
        cases r' with
        | some r' => rw [hp] at ha; simp at ha
        | none =>
          cases hq : placeIn p h (A ++ e :: E) with
          | ok q =>
            obtain ⟨S, rfl⟩ := ih hp q hq
            rw [hq] at hr
            simp only [Res.ok.injEq] at hr
            exact ⟨_, hr.symm⟩
          | throws e => rw [hq] at hr; simp at hr
          | ub u => rw [hq] at hr; simp at hr
      | throws e => rw [hp] at ha; simp at ha
      | ub u => rw [hp] at ha; simp at ha

theorem label_stays {p : AbsParams} {i : Nat} {hs : List Hit} {st st' : FitState} {l : Int}
    (hi : i < st.labels.length) (hl : st.labels[i] = l) (h : fitLoop p (i + 1) hs st = .ok st') : l ∈ st'.labels := by
  have ht := fitLoop_take (i + 1) (Nat.le_refl _) h
  have : l ∈ st.labels.take (i + 1) := by
    rw [List.mem_take_iff_getElem]
    exact ⟨i, by omega, hl⟩
  rw [← ht] at this
  exact List.mem_of_mem_take this

/-- A run with more clusters agrees with one with fewer as long as those suffice. -/
theorem fitLoop_more {p : AbsParams} (hs : List Hit) (i : Nat) (A E : List Slot) (e : Slot) (he : e.size = 0)
    (mA mE : Int) (hlab : e.label = mA) (L : List Int) (hi : i + hs.length ≤ L.length) (sA sE : FitState)
    (hA : fitLoop p i hs ⟨A, mA, L⟩ = .ok sA) (hE : fitLoop p i hs ⟨A ++ e :: E, mE, L⟩ = .ok sE) :
    sE.labels = sA.labels ∨ (mA ∈ sA.labels ∧ mA ∈ sE.labels) := by
  induction hs generalizing i A L with
  | nil =>
    simp only [fitLoop, Res.ok.injEq] at hA hE
    subst hA; subst hE
    left; rfl
  | cons h hs ih =>
    simp only [List.length_cons] at hi
    obtain ⟨tA, hA1, hA2⟩ : ∃ t, fitStep p i h ⟨A, mA, L⟩ = .ok t ∧ fitLoop p (i + 1) hs t = .ok sA := by
      simp only [fitLoop, bind, Res.bind] at hA
      cases hst : fitStep p i h ⟨A, mA, L⟩ with
      | ok t => rw [hst] at hA; exact ⟨t, rfl, hA⟩
      | throws e => rw [hst] at hA; simp at hA
      | ub u => rw [hst] at hA; simp at hA
    obtain ⟨tE, hE1, hE2⟩ : ∃ t, fitStep p i h ⟨A ++ e :: E, mE, L⟩ = .ok t ∧ fitLoop p (i + 1) hs t = .ok sE := by
      simp only [fitLoop, bind, Res.bind] at hE
      cases hst : fitStep p i h ⟨A ++ e :: E, mE, L⟩ with
      | ok t => rw [hst] at hE; exact ⟨t, rfl, hE⟩
      | throws e => rw [hst] at hE; simp at hE
      | ub u => rw [hst] at hE; simp at hE
    unfold fitStep at hA1 hE1
    simp only at hA1 hE1
    cases hp : placeIn p h A with
    | throws e => rw [hp] at hA1; simp at hA1
    | ub u => rw [hp] at hA1; simp at hA1
    | ok r =>
      cases r with
      | some r =>
        rw [hp] at hA1
        rw [placeIn_append_some A (e :: E) hp] at hE1
        simp only [Res.ok.injEq] at hA1 hE1
        subst hA1; subst hE1
        exact ih (i + 1) r.1 (L.set i r.2) (by rw [List.length_set]; omega) hA2 hE2
      | none =>
        right
        rw [hp] at hA1
        simp only at hA1
        constructor
        · cases ho : openSlot mA h with
          | throws e => rw [ho] at hA1; simp at hA1
          | ub u => rw [ho] at hA1; simp at hA1
          | ok s =>
            rw [ho] at hA1
            simp only [Res.ok.injEq] at hA1
            subst hA1
            exact label_stays (by simp only [List.length_set]; omega) (by simp) hA2
        · cases hq : placeIn p h (A ++ e :: E) with
          | throws e => rw [hq] at hE1; simp at hE1
          | ub u => rw [hq] at hE1; simp at hE1
          | ok q =>
            obtain ⟨S, rfl⟩ := placeIn_append_none A E e he hp q hq
            rw [hq] at hE1
            simp only [Res.ok.injEq] at hE1
            subst hE1
            exact label_stays (by simp only [List.length_set]; omega) (by simp [hlab]) hE2

theorem initSlots_split : ∃ E e, initSlots numClusters = initSlots legacyClusters ++ e :: E ∧ e.size = 0 ∧
    e.label = (legacyClusters : Int) :=
  ⟨(initSlots numClusters).drop 5, ⟨0, 0, 0, 0, 0, 4, 0⟩, by decide, by decide, by decide⟩

/-- C70: if either library needs at most four clusters, the two give the same labels.  Missing: with five clusters they
need not, see `c70_false`. -/
theorem c70_few_partial (o o1 o2 : AbsObj) (data : List Hit)
    (h1 : o.legacyFit data = .ok o1) (h2 : o.fit data = .ok o2)
    (hfew : (∀ l ∈ o1.labels, l < 4) ∨ (∀ l ∈ o2.labels, l < 4)) : o1.labels = o2.labels := by
  obtain ⟨s1, e1, l1⟩ := fitWith_labels h1
  obtain ⟨s2, e2, l2⟩ := fit_labels h2
  obtain ⟨E, e, hsplit, he, hl⟩ := initSlots_split
  rw [hsplit] at e2
  rcases fitLoop_more data 0 (initSlots legacyClusters) E e he _ _ hl _ (by simp) s1 s2 e1 e2 with h | ⟨ha, hb⟩
  · rw [← l1, ← l2, h]
  · exfalso
    rw [l1] at ha
    rw [l2] at hb
    rcases hfew with hf | hf
    · exact absurd (hf _ ha) (by decide)
    · exact absurd (hf _ hb) (by decide)

/-- C70: on well separated bursts, any number of them, the two libraries give the same labels. -/
theorem c70_bursts_partial (o o1 o2 : AbsObj) (bursts : List (List Hit)) (h1 : o.legacyFit bursts.flatten = .ok o1)
    (h2 : o.fit bursts.flatten = .ok o2) (r : ℚ)
    (hp : o.params.feature = .fin r) (hr : |r| ≤ 2 ^ 900) (hrange : o.params.range < 2 ^ 64)
    (ht : ∀ h ∈ bursts.flatten, h.spidertime.toNat < 2 ^ 48)
    (hpos : ∀ h ∈ bursts.flatten, |h.x| ≤ 2 ^ 53 ∧ |h.y| ≤ 2 ^ 53)
    (hb : ∀ b ∈ bursts, IsBurst o.params.range r b) (hsep : Separated o.params.range bursts) :
    o1.labels = o2.labels := by
  rw [c69_bursts o o1 bursts h1 r hp hr hrange ht hpos hb hsep, c29_bursts o o2 bursts h2 r hp hr hrange ht hpos hb hsep]

/-- Five neutrons at the same time, the first of two hits. -/
def fiveNeutrons : List Hit :=
  [⟨10, 10, 5, 0, 0, some 7#32, 100#64⟩, ⟨50, 10, 5, 0, 0, some 7#32, 100#64⟩, ⟨90, 10, 5, 0, 0, some 7#32, 100#64⟩,
   ⟨130, 10, 5, 0, 0, some 7#32, 100#64⟩, ⟨170, 10, 5, 0, 0, some 7#32, 100#64⟩, ⟨11, 10, 5, 0, 0, some 7#32, 100#64⟩]

/-- C70 does not hold in general: the legacy library splits a neutron when five arrive at the same time. -/
theorem c70_false : ∃ o1 o2, (AbsObj.new exParams).legacyFit fiveNeutrons = .ok o1 ∧
    (AbsObj.new exParams).fit fiveNeutrons = .ok o2 ∧ o1.labels = [0, 1, 2, 3, 4, 5] ∧ o2.labels = [0, 1, 2, 3, 4, 0] := by
  obtain ⟨o1, h1⟩ := c69_returns (AbsObj.new exParams) fiveNeutrons (by decide)
  obtain ⟨o2, h2⟩ := c24_fit_returns (AbsObj.new exParams) fiveNeutrons (by decide)
  refine ⟨o1, o2, h1, h2, ?_, ?_⟩
  · have e : ((AbsObj.new exParams).legacyFit fiveNeutrons).bind (fun o => .ok o.labels) = .ok [0, 1, 2, 3, 4, 5] := by
      decide +kernel
    rw [h1] at e
    simpa [Res.bind] using e
  · have e : ((AbsObj.new exParams).fit fiveNeutrons).bind (fun o => .ok o.labels) = .ok [0, 1, 2, 3, 4, 0] := by
      decide +kernel
    rw [h2] at e
    simpa [Res.bind] using e

/-- Two clusters: the hypotheses of `c70_few_partial` are met. -/
example : ∃ o1 o2, (AbsObj.new exParams).legacyFit exHits = .ok o1 ∧ (AbsObj.new exParams).fit exHits = .ok o2 ∧
    o1.labels = [0, 1, 0] ∧ (∀ l ∈ o1.labels, l < 4) := by
  obtain ⟨o1, h1⟩ := c69_returns (AbsObj.new exParams) exHits (by decide)
  obtain ⟨o2, h2⟩ := c24_fit_returns (AbsObj.new exParams) exHits (by decide)
  have e : ((AbsObj.new exParams).legacyFit exHits).bind (fun o => .ok o.labels) = .ok [0, 1, 0] := by decide +kernel
  rw [h1] at e
  have e : o1.labels = [0, 1, 0] := by simpa [Res.bind] using e
  exact ⟨o1, o2, h1, h2, e, by rw [e]; decide⟩

/-! ## C71: the events of the legacy library -/

theorem legacyEvents_eq (solve : List GaussRow → F64 × F64) (o : AbsObj) (data : List Hit) (h : data ≠ []) :
    o.legacyEvents solve data = o.getEvents solve data := by
  unfold AbsObj.legacyEvents AbsObj.getEvents
  split_ifs with h1 h2
  · rfl
  · rw [h2] at h1
    have : 0 = data.length := by simpa using h1
    exact absurd (List.eq_nil_of_length_eq_zero this.symm) h
  · rfl

/-- C71: with the centroid method `get_events` after `fit` on the same hits, at least one, returns in label order one event
for each cluster with at least the minimum size and with non-zero total ToT.  Missing: no hits, see `c71_false_empty`. -/
theorem c71_events_partial (solve : List GaussRow → F64 × F64) (o o' : AbsObj) (data : List Hit)
    (h : o.legacyFit data = .ok o') (hm : o.method = "centroid") (hd : ∀ h ∈ data, Decoded h)
    (hsize : data.length ≤ 2 ^ 31) (hne : data ≠ []) :
    ∃ (k : Nat) (events : List Neutron), (∀ l : Int, l ∈ o'.labels ↔ 0 ≤ l ∧ l < k) ∧
      o'.legacyEvents solve data = .ok events ∧
      List.Forall₂ (fun (l : Nat) e => IsEventOf 1 (members data o'.labels l) e)
        ((List.range k).filter fun l => o.params.minSize ≤ (members data o'.labels l).length ∧
          total Hit.tot (members data o'.labels l) ≠ 0) events := by
  rw [legacyEvents_eq _ _ _ hne]
  exact fitWith_events (by decide) solve o o' data h hm hd hsize

/-- C71: with minimum size at most 1 and no cluster of zero total ToT the hit counts of the events add up to the number
of hits. -/
theorem c71_conservation_partial (solve : List GaussRow → F64 × F64) (o o' : AbsObj) (data : List Hit)
    (h : o.legacyFit data = .ok o') (hm : o.method = "centroid") (hd : ∀ h ∈ data, Decoded h)
    (hsize : data.length ≤ 2 ^ 31) (hne : data ≠ []) (hmin : o.params.minSize ≤ 1)
    (htot : ∀ l ∈ o'.labels, total Hit.tot (members data o'.labels l) ≠ 0) :
    ∃ events, o'.legacyEvents solve data = .ok events ∧ (events.map Neutron.nHits).sum = data.length := by
  rw [legacyEvents_eq _ _ _ hne]
  exact fitWith_conservation (by decide) solve o o' data h hm hd hsize hmin htot

/-- C71 does not hold for no hits: the end of an empty vector is read. -/
theorem c71_false_empty (solve : List GaussRow → F64 × F64) (o : AbsObj) :
    ∃ o', o.legacyFit [] = .ok o' ∧ o'.legacyEvents solve [] = .ub .oobRead := by
  obtain ⟨o', h⟩ := c69_returns o [] (by simp)
  refine ⟨o', h, ?_⟩
  have hl : o'.labels = [] := List.eq_nil_of_length_eq_zero (c69_labels o o' [] h).1
  unfold AbsObj.legacyEvents
  rw [if_neg (by simp [hl]), if_pos hl]

/-- C71: after `fit` on some hits, `get_events` on hits, at least one, throws exactly if their number differs or the method
is unknown, and reads nothing out of bounds. -/
theorem c71_misuse_partial (solve : List GaussRow → F64 × F64) (o o' : AbsObj) (fitted data : List Hit)
    (h : o.legacyFit fitted = .ok o') (hne : data ≠ []) :
    ((∃ m, o'.legacyEvents solve data = .throws m) ↔
      fitted.length ≠ data.length ∨ (o.method ≠ "centroid" ∧ o.method ≠ "fast_gaussian")) ∧
    o'.legacyEvents solve data ≠ .ub .oobRead := by
  have hc := fitWith_consistent (by decide) h
  have hl := (c69_labels o o' fitted h).1
  have hpm := (fitWith_inv (by decide) h).choose_spec.choose_spec.choose_spec.2
  rw [legacyEvents_eq _ _ _ hne, ← hl, ← hpm.2.1]
  rcases getEvents_cases (solve := solve) hc data with ⟨h1, m, h2⟩ | ⟨h1, h2, h3, h4, m, h5⟩ | ⟨h1, h2, h3⟩ |
    ⟨h1, h2, h3, h4⟩
  · rw [h2]; exact ⟨⟨fun _ => Or.inl h1, fun _ => ⟨m, rfl⟩⟩, by simp⟩
  · rw [h5]; exact ⟨⟨fun _ => Or.inr ⟨h3, h4⟩, fun _ => ⟨m, rfl⟩⟩, by simp⟩
  · exact absurd h2 hne
  · have : ¬ (o'.labels.length ≠ data.length ∨ (o'.method ≠ "centroid" ∧ o'.method ≠ "fast_gaussian")) := by
      rintro (h | h)
      · exact h h1
      · rcases h3 with h3 | h3
        · exact h.1 h3
        · exact h.2 h3
    rcases h4 with ⟨r, hr⟩ | ⟨hr, _⟩ <;> rw [hr] <;> simp [this]

/-- The three hits meet the hypotheses of C71. -/
example : (∀ h ∈ exHits, Decoded h) ∧ exHits ≠ [] ∧ exHits.length ≤ 2 ^ 31 ∧
    (AbsObj.new exParams).method = "centroid" ∧ (AbsObj.new exParams).params.minSize ≤ 1 ∧
    ∃ o', (AbsObj.new exParams).legacyFit exHits = .ok o' ∧
      ∀ l ∈ o'.labels, total Hit.tot (members exHits o'.labels l) ≠ 0 := by
  refine ⟨?_, by decide, by decide, rfl, by decide, ?_⟩
  · intro h hh
    simp only [exHits, List.mem_cons, List.not_mem_nil, or_false] at hh
    rcases hh with rfl | rfl | rfl <;> exact ⟨by decide, by decide, by decide, _, rfl, by decide⟩
  · obtain ⟨o1, h1⟩ := c69_returns (AbsObj.new exParams) exHits (by decide)
    have e : ((AbsObj.new exParams).legacyFit exHits).bind (fun o => .ok o.labels) = .ok [0, 1, 0] := by decide +kernel
    rw [h1] at e
    have e : o1.labels = [0, 1, 0] := by simpa [Res.bind] using e
    exact ⟨o1, h1, by rw [e]; decide⟩

/-- Events depend on the labels only. -/
theorem eventLoop_congr {o1 o2 : AbsObj} (alg : List Hit → Res Neutron) (data : List Hit) (h1 : Consistent o1)
    (h2 : Consistent o2) (hl : o1.labels = o2.labels) (hp : o1.params = o2.params) (hne : o1.labels ≠ [])
    (fuel l : Nat) (b1 : l + fuel ≤ o1.indices.length) (b2 : l + fuel ≤ o2.indices.length) :
    o1.eventLoop alg data fuel l = o2.eventLoop alg data fuel l := by
  induction fuel generalizing l with
  | zero => rfl
  | succ fuel ih =>
    rw [AbsObj.eventLoop, AbsObj.eventLoop, h1.indices hne l (by omega), h2.indices (hl ▸ hne) l (by omega), hl, hp,
      ih (l + 1) (by omega) (by omega)]

/-- C71: when either library needs at most four clusters, the two build the same events, with either method. -/
theorem c71_same_partial (solve : List GaussRow → F64 × F64) (o o1 o2 : AbsObj) (data : List Hit) (hne : data ≠ [])
    (h1 : o.legacyFit data = .ok o1) (h2 : o.fit data = .ok o2)
    (hfew : (∀ l ∈ o1.labels, l < 4) ∨ (∀ l ∈ o2.labels, l < 4)) :
    o1.legacyEvents solve data = o2.getEvents solve data := by
  have hl := c70_few_partial o o1 o2 data h1 h2 hfew
  have c1 := fitWith_consistent (by decide) h1
  have c2 := fit_consistent h2
  have p1 := (fitWith_inv (by decide) h1).choose_spec.choose_spec.choose_spec.2
  have p2 := (fit_inv h2).choose_spec.choose_spec.choose_spec.2
  have hlen := (c69_labels o o1 data h1).1
  have hne1 : o1.labels ≠ [] := by
    intro e
    rw [e] at hlen
    exact hne (List.eq_nil_of_length_eq_zero hlen.symm)
  rw [legacyEvents_eq _ _ _ hne]
  unfold AbsObj.getEvents
  rw [← hl, p1.2.1, p2.2.1]
  split_ifs
  · rfl
  · cases AbsObj.algorithm solve o.method with
    | none => rfl
    | some alg =>
      have m1 := c1.labels _ (maxLabelOf_mem _ hne1)
      have m2 := c2.labels (AbsObj.maxLabelOf o1.labels) (by rw [← hl]; exact maxLabelOf_mem _ hne1)
      exact eventLoop_congr alg data c1 c2 hl (p1.1.trans p2.1.symm) hne1 _ _ (by omega) (by omega)

end Verif.Props
