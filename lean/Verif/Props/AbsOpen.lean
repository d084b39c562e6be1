import Verif.Lemmas.AbsOpen
import Verif.Props.LegacyAbs
import Mathlib.Data.Finset.Max
import Mathlib.Data.Int.Interval

/-! # C76: a cluster stays open until as many clusters as there are slots started after it -/

namespace Verif.Props

open Verif Verif.Spec

theorem fitWith_choice {n : Nat} (hn : 0 < n) {o o' : AbsObj} {data : List Hit} (h : o.fitWith n data = .ok o')
    (ht : ∀ h ∈ data, h.spidertime.toNat < 2 ^ 48) (i : Nat) (hi : i < data.length) (hi' : i < o'.labels.length) :
    Choice n o.params (data.take i) (o'.labels.take i) o'.labels[i] data[i] := by
  obtain ⟨st, hst, hl⟩ := fitWith_labels h
  obtain ⟨ls2, e1, e2, e3⟩ := fitLoop_open data [] [] (List.replicate data.length (-1)) 0 _ st (OpenInv.init n)
    (FitInv.init hn o.params) rfl (by simp) (by simpa using ht) (by simp) hst
  have e : o'.labels = ls2 := by rw [← hl, e1]; simp
  subst e
  simpa using e3 i (by simpa using hi) (by simpa using hi')

theorem accepts_of_matches {p : AbsParams} {r : ℚ} {hits : List Hit} {ls : List Int} {l : Int} {h : Hit}
    (hlen : hits.length = ls.length) (hl : l ∈ ls) (hp : p.feature = .fin r) (hr : |r| ≤ 2 ^ 900) (hrange : p.range < 2 ^ 64)
    (ht : ∀ g ∈ hits, g.spidertime.toNat < 2 ^ 48) (hpos : ∀ g ∈ hits, |g.x| ≤ 2 ^ 53 ∧ |g.y| ≤ 2 ^ 53)
    (hth : h.spidertime.toNat < 2 ^ 48) (hposh : |h.x| ≤ 2 ^ 53 ∧ |h.y| ≤ 2 ^ 53) (hm : Matches p.range r hits ls l h)
    (s : Slot) (hs : SlotOf (members hits ls l) s) : s.accepts p h = true := by
  obtain ⟨g, hg, hhd, e⟩ := startNs_mem hlen hl
  have h1 := hm.1
  rw [e] at h1
  exact accepts_of_near hs hhd hth (ht g hg) hrange hp hr hposh (fun g hg => hpos g (mem_members hg)) h1 hm.2

theorem fitWith_joins {n : Nat} (hn : 0 < n)
    (o o' : AbsObj) (data : List Hit) (h : o.fitWith n data = .ok o') (r : ℚ)
    (hp : o.params.feature = .fin r) (hr : |r| ≤ 2 ^ 900) (hrange : o.params.range < 2 ^ 64)
    (ht : ∀ h ∈ data, h.spidertime.toNat < 2 ^ 48) (hpos : ∀ h ∈ data, |h.x| ≤ 2 ^ 53 ∧ |h.y| ≤ 2 ^ 53)
    (i : Nat) (hi : i < data.length) (hi' : i < o'.labels.length) (l : Int) (hl : l ∈ o'.labels.take i)
    (hm : Matches o.params.range r (data.take i) (o'.labels.take i) l data[i])
    (hnew : o'.labels[i] ∉ o'.labels.take i) :
    n ≤ (notEarlier (data.take i) (o'.labels.take i) l).card + 1 ∧
      (InOrder (data.take i) → n ≤ (notEarlier (data.take i) (o'.labels.take i) l).card) := by
  have hlen := (fitWith_gapless hn o o' data h).1
  have hmem : ∀ g ∈ data.take i, g ∈ data := fun g hg => List.mem_of_mem_take hg
  exact (fitWith_choice hn h ht i hi hi').1 hnew l hl
    (accepts_of_matches (by rw [List.length_take, List.length_take, hlen]) hl hp hr hrange
      (fun g hg => ht g (hmem g hg)) (fun g hg => hpos g (hmem g hg)) (ht _ (List.getElem_mem hi))
      (hpos _ (List.getElem_mem hi)) hm)

/-- C76: a hit that matches a cluster, fewer than seven others having started no earlier, joins a cluster. -/
theorem c76_joins (o o' : AbsObj) (data : List Hit) (h : o.fit data = .ok o') (r : ℚ)
    (hp : o.params.feature = .fin r) (hr : |r| ≤ 2 ^ 900) (hrange : o.params.range < 2 ^ 64)
    (ht : ∀ h ∈ data, h.spidertime.toNat < 2 ^ 48) (hpos : ∀ h ∈ data, |h.x| ≤ 2 ^ 53 ∧ |h.y| ≤ 2 ^ 53)
    (i : Nat) (hi : i < data.length) (hi' : i < o'.labels.length) (l : Int) (hl : l ∈ o'.labels.take i)
    (hm : Matches o.params.range r (data.take i) (o'.labels.take i) l data[i])
    (hfew : (notEarlier (data.take i) (o'.labels.take i) l).card < 7) : o'.labels[i] ∈ o'.labels.take i := by
  by_contra hnew
  have := (fitWith_joins (n := numClusters) (by decide) o o' data h r hp hr hrange ht hpos i hi hi' l hl hm hnew).1
  unfold numClusters at this
  omega

/-- C76: when the hits come in order of time, fewer than eight are enough. -/
theorem c76_joins_in_order (o o' : AbsObj) (data : List Hit) (h : o.fit data = .ok o') (r : ℚ)
    (hp : o.params.feature = .fin r) (hr : |r| ≤ 2 ^ 900) (hrange : o.params.range < 2 ^ 64)
    (ht : ∀ h ∈ data, h.spidertime.toNat < 2 ^ 48) (hpos : ∀ h ∈ data, |h.x| ≤ 2 ^ 53 ∧ |h.y| ≤ 2 ^ 53)
    (i : Nat) (hi : i < data.length) (hi' : i < o'.labels.length) (hord : InOrder (data.take i))
    (l : Int) (hl : l ∈ o'.labels.take i)
    (hm : Matches o.params.range r (data.take i) (o'.labels.take i) l data[i])
    (hfew : (notEarlier (data.take i) (o'.labels.take i) l).card < 8) : o'.labels[i] ∈ o'.labels.take i := by
  by_contra hnew
  have := (fitWith_joins (n := numClusters) (by decide) o o' data h r hp hr hrange ht hpos i hi hi' l hl hm hnew).2 hord
  unfold numClusters at this
  omega

/-- C76: and a hit joins no cluster after which eight others have started. -/
theorem c76_closed (o o' : AbsObj) (data : List Hit) (h : o.fit data = .ok o')
    (ht : ∀ h ∈ data, h.spidertime.toNat < 2 ^ 48) (i : Nat) (hi : i < data.length) (hi' : i < o'.labels.length)
    (hord : InOrder (data.take i)) (hold : o'.labels[i] ∈ o'.labels.take i) :
    (laterThan (data.take i) (o'.labels.take i) o'.labels[i]).card < 8 :=
  (fitWith_choice (n := numClusters) (by decide) h ht i hi hi').2 hold hord

/-! ### Clusters that start at different times: the last eight -/

/-- A finite set of numbers that contains with every number all smaller ones. -/
theorem downward_closed (S : Finset Int) (h0 : ∀ x ∈ S, 0 ≤ x) (hd : ∀ x ∈ S, ∀ y, 0 ≤ y → y < x → y ∈ S) (x : Int) :
    x ∈ S ↔ 0 ≤ x ∧ x < S.card := by
  rcases S.eq_empty_or_nonempty with rfl | hne
  · simp
  · obtain ⟨m, hm, hmax⟩ := S.exists_max_image id hne
    have e : S = Finset.Ico 0 (m + 1) := by
      ext y
      rw [Finset.mem_Ico]
      constructor
      · intro hy
        have := hmax y hy
        simp only [id] at this
        exact ⟨h0 y hy, by omega⟩
      · intro hy
        rcases Int.lt_or_eq_of_le (by omega : y ≤ m) with hlt | rfl
        · exact hd m hm y hy.1 hlt
        · exact hm
    have hm0 := h0 m hm
    have hc : (S.card : Int) = m + 1 := by
      rw [e, Int.card_Ico]; omega
    rw [hc]
    conv_lhs => rw [e]
    rw [Finset.mem_Ico]

theorem startNs_first (data : List Hit) (ls : List Int) (hlen : data.length = ls.length) (x : Int) (hx : x ∈ ls) :
    ∃ j, ∃ hj : j < data.length, ∃ hj' : j < ls.length, ls[j] = x ∧ (∀ m (hm : m < j), ls[m] ≠ x) ∧
      startNs data ls x = arrivalNs data[j] := by
  have hex : ∃ m, ∃ hm : m < ls.length, ls[m] = x := List.getElem_of_mem hx
  classical
  obtain ⟨hf, hfe⟩ := Nat.find_spec hex
  have hmin : ∀ m (hm : m < Nat.find hex), ls[m] ≠ x := fun m hm e => Nat.find_min hex hm ⟨by omega, e⟩
  refine ⟨Nat.find hex, by omega, hf, hfe, hmin, ?_⟩
  have hhd := members_head data ls (Nat.find hex) (by omega) hf hlen (fun m hm => by rw [hfe]; exact hmin m hm)
  rw [hfe] at hhd
  unfold startNs
  rw [hhd]
  rfl

theorem starts_mono (data : List Hit) (ls : List Int) (hlen : data.length = ls.length) (hord : InOrder data)
    (hg : ∀ i (hi : i < ls.length) (l : Int), 0 ≤ l → l < ls[i] → ∃ j, ∃ hj : j < i, ls[j] = l)
    (x y : Int) (hx : x ∈ ls) (hy : y ∈ ls) (h0 : 0 ≤ x) (hxy : x < y) : startNs data ls x ≤ startNs data ls y := by
  obtain ⟨a, ha, ha', ea, mina, sa⟩ := startNs_first data ls hlen x hx
  obtain ⟨b, hb, hb', eb, minb, sb⟩ := startNs_first data ls hlen y hy
  rw [sa, sb]
  obtain ⟨j, hj, e⟩ := hg b hb' x h0 (by omega)
  have hab : a < b := by
    by_contra hn
    exact mina j (by omega) e
  exact List.pairwise_iff_getElem.mp hord a b ha hb hab

theorem fitWith_last {n : Nat} (hn : 0 < n)
    (o o' : AbsObj) (data : List Hit) (h : o.fitWith n data = .ok o') (r : ℚ)
    (hp : o.params.feature = .fin r) (hr : |r| ≤ 2 ^ 900) (hrange : o.params.range < 2 ^ 64)
    (ht : ∀ h ∈ data, h.spidertime.toNat < 2 ^ 48) (hpos : ∀ h ∈ data, |h.x| ≤ 2 ^ 53 ∧ |h.y| ≤ 2 ^ 53)
    (i : Nat) (hi : i < data.length) (hi' : i < o'.labels.length) (hord : InOrder (data.take i))
    (hdist : DistinctStarts (data.take i) (o'.labels.take i)) (started : Nat)
    (hstarted : ∀ l : Int, l ∈ o'.labels.take i ↔ 0 ≤ l ∧ l < started) :
    (o'.labels[i] = started ∨ (o'.labels[i] < started ∧ (started : Int) ≤ o'.labels[i] + n)) ∧
    (∀ l : Int, 0 ≤ l → l < started → (started : Int) ≤ l + n →
      Matches o.params.range r (data.take i) (o'.labels.take i) l data[i] → o'.labels[i] < started) := by
  obtain ⟨hlen, ⟨k, hk⟩, hgrow⟩ := fitWith_gapless hn o o' data h
  have hlen' : (data.take i).length = (o'.labels.take i).length := by rw [List.length_take, List.length_take, hlen]
  have hgrow' : ∀ j (hj : j < (o'.labels.take i).length) (l : Int), 0 ≤ l → l < (o'.labels.take i)[j] →
      ∃ m, ∃ hm : m < j, (o'.labels.take i)[m] = l := by
    intro j hj l h0 hl
    have hj2 : j < o'.labels.length := by rw [List.length_take] at hj; omega
    rw [List.getElem_take] at hl
    obtain ⟨m, hm, e⟩ := hgrow j hj2 l h0 hl
    exact ⟨m, hm, by rw [List.getElem_take]; exact e⟩
  have hstrict : ∀ x y, x ∈ o'.labels.take i → y ∈ o'.labels.take i →
      (startNs (data.take i) (o'.labels.take i) x < startNs (data.take i) (o'.labels.take i) y ↔ x < y) := by
    intro x y hx hy
    have lt : ∀ x y, x ∈ o'.labels.take i → y ∈ o'.labels.take i → x < y →
        startNs (data.take i) (o'.labels.take i) x < startNs (data.take i) (o'.labels.take i) y := by
      intro x y hx hy hxy
      have h1 := starts_mono _ _ hlen' hord hgrow' x y hx hy ((hstarted x).mp hx).1 hxy
      rcases Int.lt_or_eq_of_le h1 with h1 | h1
      · exact h1
      · have := hdist x hx y hy h1
        omega
    constructor
    · intro hlt
      rcases lt_trichotomy x y with hh | rfl | hh
      · exact hh
      · omega
      · have := lt y x hy hx hh; omega
    · exact lt x y hx hy
  have hnn : 0 ≤ o'.labels[i] := ((hk _).mp (List.getElem_mem hi')).1
  have hle : o'.labels[i] ≤ started := by
    by_contra hgt
    obtain ⟨j, hj, e⟩ := hgrow i hi' started (by omega) (by omega)
    have hjm : (started : Int) ∈ o'.labels.take i := by
      rw [← e]
      exact List.mem_take_iff_getElem.mpr ⟨j, by omega, rfl⟩
    have := (hstarted _).mp hjm
    omega
  constructor
  · rcases Int.lt_or_eq_of_le hle with hlt | he
    · right
      refine ⟨hlt, ?_⟩
      have hold : o'.labels[i] ∈ o'.labels.take i := (hstarted _).mpr ⟨hnn, hlt⟩
      have hc := (fitWith_choice hn h ht i hi hi').2 hold hord
      have hsub : Finset.Ioo o'.labels[i] (started : Int) ⊆ laterThan (data.take i) (o'.labels.take i) o'.labels[i] := by
        intro y hy
        rw [Finset.mem_Ioo] at hy
        have hym : y ∈ o'.labels.take i := (hstarted y).mpr ⟨by omega, hy.2⟩
        unfold laterThan
        rw [Finset.mem_filter, List.mem_toFinset]
        exact ⟨hym, (hstrict _ _ hold hym).mpr hy.1⟩
      have := Finset.card_le_card hsub
      rw [Int.card_Ioo] at this
      omega
    · left; exact he
  · intro l h0 hls hln hm
    by_contra hge
    have he : o'.labels[i] = started := by omega
    have hlm : l ∈ o'.labels.take i := (hstarted l).mpr ⟨h0, hls⟩
    have hc := (fitWith_joins hn o o' data h r hp hr hrange ht hpos i hi hi' l hlm hm
      (fun hmem => by have := ((hstarted _).mp hmem).2; omega)).2 hord
    have hsub : notEarlier (data.take i) (o'.labels.take i) l ⊆ Finset.Ioo l (started : Int) := by
      intro y hy
      unfold notEarlier at hy
      rw [Finset.mem_filter, List.mem_toFinset] at hy
      rw [Finset.mem_Ioo]
      refine ⟨?_, ((hstarted y).mp hy.1).2⟩
      by_contra hyl
      have hlt : y < l := by have := hy.2.1; omega
      have := (hstrict y l hy.1 hlm).mpr hlt
      have := hy.2.2
      omega
    have := Finset.card_le_card hsub
    rw [Int.card_Ioo] at this
    omega

/-- C76: for hits in order of time and clusters that start at different times, the open clusters are the last eight
started. A hit starts a cluster or joins one of these, and it does not start one if it matches one of these. -/
theorem c76_last_eight (o o' : AbsObj) (data : List Hit) (h : o.fit data = .ok o') (r : ℚ)
    (hp : o.params.feature = .fin r) (hr : |r| ≤ 2 ^ 900) (hrange : o.params.range < 2 ^ 64)
    (ht : ∀ h ∈ data, h.spidertime.toNat < 2 ^ 48) (hpos : ∀ h ∈ data, |h.x| ≤ 2 ^ 53 ∧ |h.y| ≤ 2 ^ 53)
    (i : Nat) (hi : i < data.length) (hi' : i < o'.labels.length) (hord : InOrder (data.take i))
    (hdist : DistinctStarts (data.take i) (o'.labels.take i)) (started : Nat)
    (hstarted : ∀ l : Int, l ∈ o'.labels.take i ↔ 0 ≤ l ∧ l < started) :
    (o'.labels[i] = started ∨ (o'.labels[i] < started ∧ (started : Int) ≤ o'.labels[i] + 8)) ∧
    (∀ l : Int, 0 ≤ l → l < started → (started : Int) ≤ l + 8 →
      Matches o.params.range r (data.take i) (o'.labels.take i) l data[i] → o'.labels[i] < started) :=
  fitWith_last (n := numClusters) (by decide) o o' data h r hp hr hrange ht hpos i hi hi' hord hdist started hstarted

/-- C76: the number `started` of the previous theorem exists: it is the number of labels given so far. -/
theorem c76_started (o o' : AbsObj) (data : List Hit) (h : o.fit data = .ok o') (i : Nat) (l : Int) :
    l ∈ o'.labels.take i ↔ 0 ≤ l ∧ l < (o'.labels.take i).toFinset.card := by
  obtain ⟨hlen, ⟨k, hk⟩, hgrow⟩ := c24_labels o o' data h
  rw [← List.mem_toFinset]
  apply downward_closed
  · intro x hx
    exact ((hk x).mp (List.mem_of_mem_take (List.mem_toFinset.mp hx))).1
  · intro x hx y h0 hy
    obtain ⟨j, hj, e⟩ := List.mem_take_iff_getElem.mp (List.mem_toFinset.mp hx)
    obtain ⟨m, hm, e'⟩ := hgrow j (by omega) y h0 (by rw [e]; exact hy)
    rw [List.mem_toFinset]
    exact List.mem_take_iff_getElem.mpr ⟨m, by omega, e'⟩

/-- C76 for the legacy library: the last four. -/
theorem c76_legacy_last_four (o o' : AbsObj) (data : List Hit) (h : o.legacyFit data = .ok o') (r : ℚ)
    (hp : o.params.feature = .fin r) (hr : |r| ≤ 2 ^ 900) (hrange : o.params.range < 2 ^ 64)
    (ht : ∀ h ∈ data, h.spidertime.toNat < 2 ^ 48) (hpos : ∀ h ∈ data, |h.x| ≤ 2 ^ 53 ∧ |h.y| ≤ 2 ^ 53)
    (i : Nat) (hi : i < data.length) (hi' : i < o'.labels.length) (hord : InOrder (data.take i))
    (hdist : DistinctStarts (data.take i) (o'.labels.take i)) (started : Nat)
    (hstarted : ∀ l : Int, l ∈ o'.labels.take i ↔ 0 ≤ l ∧ l < started) :
    (o'.labels[i] = started ∨ (o'.labels[i] < started ∧ (started : Int) ≤ o'.labels[i] + 4)) ∧
    (∀ l : Int, 0 ≤ l → l < started → (started : Int) ≤ l + 4 →
      Matches o.params.range r (data.take i) (o'.labels.take i) l data[i] → o'.labels[i] < started) :=
  fitWith_last (n := legacyClusters) (by decide) o o' data h r hp hr hrange ht hpos i hi hi' hord hdist started hstarted

/-- Ten clusters that start one tick apart, then a hit near the third of them. -/
def exTen : List Hit :=
  (List.range 10).map (fun (i : Nat) => ⟨20 * i, 10, 5, 0, 0, some 7#32, BitVec.ofNat 64 (100 + i)⟩) ++
    [⟨41, 10, 5, 0, 0, some 7#32, 103#64⟩]

/-- All hypotheses of C76 are met by that list; the hit joins the third cluster, the first of the last eight. -/
example : ∃ o', (AbsObj.new exParams).fit exTen = .ok o' ∧ o'.labels = [0, 1, 2, 3, 4, 5, 6, 7, 8, 9, 2] ∧
    InOrder (exTen.take 10) ∧ DistinctStarts (exTen.take 10) (o'.labels.take 10) ∧
    (∀ h ∈ exTen, h.spidertime.toNat < 2 ^ 48) ∧ (∀ h ∈ exTen, |h.x| ≤ 2 ^ 53 ∧ |h.y| ≤ 2 ^ 53) ∧
    (∀ l : Int, l ∈ o'.labels.take 10 ↔ 0 ≤ l ∧ l < (10 : Nat)) := by
  obtain ⟨o', h⟩ := c24_fit_returns (AbsObj.new exParams) exTen (by decide)
  have e : ((AbsObj.new exParams).fit exTen).bind (fun o => .ok o.labels) = .ok [0, 1, 2, 3, 4, 5, 6, 7, 8, 9, 2] := by
    decide +kernel
  rw [h] at e
  have e : o'.labels = [0, 1, 2, 3, 4, 5, 6, 7, 8, 9, 2] := by simpa [Res.bind] using e
  refine ⟨o', h, e, ?_, ?_, by decide, by decide, ?_⟩
  · unfold InOrder; decide
  · rw [e]; unfold DistinctStarts; decide
  · rw [e]
    intro l
    simp only [List.take_succ_cons, List.take_zero, List.mem_cons, List.not_mem_nil, or_false]
    omega

/-- Ten clusters that start at the same time, then a hit near the ninth of them. -/
def exTies : List Hit :=
  (List.range 10).map (fun (i : Nat) => ⟨20 * i, 10, 5, 0, 0, some 7#32, 100#64⟩) ++
    [⟨161, 10, 5, 0, 0, some 7#32, 101#64⟩]

/-- C76: without the condition that the clusters start at different times the last eight need not be open. Of clusters that
started at the same time the first slot is given up again and again, so the ninth of ten clusters is closed when the
tenth starts, and a hit that matches it starts a new one. -/
theorem c76_false_ties : ∃ o', (AbsObj.new exParams).fit exTies = .ok o' ∧
    o'.labels = [0, 1, 2, 3, 4, 5, 6, 7, 8, 9, 10] ∧ InOrder exTies ∧
    Matches exParams.range 5 (exTies.take 10) (o'.labels.take 10) 8 ⟨161, 10, 5, 0, 0, some 7#32, 101#64⟩ := by
  obtain ⟨o', h⟩ := c24_fit_returns (AbsObj.new exParams) exTies (by decide)
  have e : ((AbsObj.new exParams).fit exTies).bind (fun o => .ok o.labels) = .ok [0, 1, 2, 3, 4, 5, 6, 7, 8, 9, 10] := by
    decide +kernel
  rw [h] at e
  have e : o'.labels = [0, 1, 2, 3, 4, 5, 6, 7, 8, 9, 10] := by simpa [Res.bind] using e
  refine ⟨o', h, e, by unfold InOrder; decide, ?_, ?_⟩
  · rw [e]; decide
  · rw [e]
    have hm : members (exTies.take 10) ([0, 1, 2, 3, 4, 5, 6, 7, 8, 9, 10].take 10) 8 =
        [⟨160, 10, 5, 0, 0, some 7#32, 100#64⟩] := by decide
    rw [hm]
    refine ⟨⟨⟨160, by simp, by norm_num⟩, ⟨160, by simp, by norm_num⟩⟩, ⟨⟨10, by simp, by norm_num⟩, ⟨10, by simp, by norm_num⟩⟩⟩

end Verif.Props
