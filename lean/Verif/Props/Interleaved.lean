import Verif.Props.AbsOpen
import Verif.Spec.Interleaved

/-! # C83: neutrons whose hits are interleaved are told apart -/

namespace Verif.Props

open Verif Verif.Spec

theorem NearSpan.mono {r : ℚ} {l l' : List Int} {x : Int} (h : NearSpan r l x) (hs : ∀ a ∈ l, a ∈ l') : NearSpan r l' x := by
  obtain ⟨⟨a, ha, h1⟩, ⟨b, hb, h2⟩⟩ := h
  exact ⟨⟨a, hs a ha, h1⟩, ⟨b, hs b hb, h2⟩⟩

theorem NearBox.mono {r : ℚ} {M M' : List Hit} {x : Hit} (h : NearBox r M x) (hs : ∀ a ∈ M, a ∈ M') : NearBox r M' x := by
  refine ⟨NearSpan.mono h.1 ?_, NearSpan.mono h.2 ?_⟩ <;>
  · intro a ha
    obtain ⟨g, hg, rfl⟩ := List.mem_map.mp ha
    exact List.mem_map.mpr ⟨g, hs g hg, rfl⟩

theorem members_take_sub {hits : List Hit} {ls : List Int} {l : Int} {i : Nat} :
    ∀ g ∈ members (hits.take i) (ls.take i) l, g ∈ members hits ls l := by
  intro g hg
  unfold members at hg ⊢
  rw [show (hits.take i).zip (ls.take i) = (hits.zip ls).take i by simp only [List.zip_eq_zipWith, List.take_zipWith]] at hg
  obtain ⟨p, hp, rfl⟩ := List.mem_map.mp hg
  obtain ⟨h1, h2⟩ := List.mem_filter.mp hp
  exact List.mem_map.mpr ⟨p, List.mem_filter.mpr ⟨List.mem_of_mem_take h1, h2⟩, rfl⟩

/-- Joining a cluster means to match it, up to the rounding of the box. -/
theorem fitWith_matches {n : Nat} (hn : 0 < n) (o o' : AbsObj) (data : List Hit) (h : o.fitWith n data = .ok o') (r : ℚ)
    (hp : o.params.feature = .fin r) (hr : |r| ≤ 2 ^ 20) (hrange : o.params.range < 2 ^ 64)
    (ht : ∀ h ∈ data, h.spidertime.toNat < 2 ^ 48) (hpos : ∀ h ∈ data, |h.x| ≤ 2 ^ 20 ∧ |h.y| ≤ 2 ^ 20)
    (i : Nat) (hi : i < data.length) (hi' : i < o'.labels.length) (hold : o'.labels[i] ∈ o'.labels.take i) :
    Matches o.params.range (r + 1 / 2 ^ 32) (data.take i) (o'.labels.take i) o'.labels[i] data[i] := by
  have hlen := (fitWith_gapless hn o o' data h).1
  obtain ⟨j, hj, e⟩ := List.mem_take_iff_getElem.mp hold
  refine ⟨?_, fitWith_rounded hn o o' data h r hp hr hpos i hi hi' j (by omega) e⟩
  have hlt : (data.take i).length = (o'.labels.take i).length := by rw [List.length_take, List.length_take, hlen]
  obtain ⟨m, hm, hm', h1, h2, h3⟩ := startNs_first _ _ hlt _ hold
  have hmi : m < i := by rw [List.length_take] at hm; omega
  rw [h3, List.getElem_take]
  rw [List.getElem_take] at h1
  refine fitWith_first hn o o' data h ht hrange i m hi (by omega) hi' (by omega) h1.symm ?_
  intro a ha e
  have := h2 a ha
  rw [List.getElem_take] at this
  exact this (e.trans h1)

/-- A label that was not used before is the number of labels used before. -/
theorem fitWith_new {n : Nat} (hn : 0 < n) (o o' : AbsObj) (data : List Hit) (h : o.fitWith n data = .ok o')
    (i : Nat) (hi : i < o'.labels.length) (hnew : o'.labels[i] ∉ o'.labels.take i) :
    o'.labels[i] = (o'.labels.take i).toFinset.card := by
  obtain ⟨hlen, ⟨k, hk⟩, hgrow⟩ := fitWith_gapless hn o o' data h
  have hdown : ∀ x : Int, x ∈ (o'.labels.take i).toFinset ↔ 0 ≤ x ∧ x < (o'.labels.take i).toFinset.card := by
    apply downward_closed
    · intro x hx
      exact ((hk x).mp (List.mem_of_mem_take (List.mem_toFinset.mp hx))).1
    · intro x hx y h0 hy
      obtain ⟨j, hj, e⟩ := List.mem_take_iff_getElem.mp (List.mem_toFinset.mp hx)
      obtain ⟨m, hm, e'⟩ := hgrow j (by omega) y h0 (by rw [e]; exact hy)
      rw [List.mem_toFinset]
      exact List.mem_take_iff_getElem.mpr ⟨m, by omega, e'⟩
  have h0 := ((hk _).mp (List.getElem_mem hi)).1
  generalize hc : (o'.labels.take i).toFinset.card = c at hdown ⊢
  have h1 : ¬ o'.labels[i] < c := fun hlt => hnew (List.mem_toFinset.mp ((hdown _).mpr ⟨h0, hlt⟩))
  by_contra hne
  obtain ⟨j, hj, e⟩ := hgrow i hi c (by omega) (by omega)
  have := (hdown c).mp (List.mem_toFinset.mpr (List.mem_take_iff_getElem.mpr ⟨j, by omega, e⟩))
  omega

theorem fitWith_interleaved {n : Nat} (hn : 0 < n) (o o' : AbsObj) (data : List Hit) (h : o.fitWith n data = .ok o') (r : ℚ)
    (hp : o.params.feature = .fin r) (hr : |r| ≤ 2 ^ 20) (hrange : o.params.range < 2 ^ 64)
    (ht : ∀ h ∈ data, h.spidertime.toNat < 2 ^ 48) (hpos : ∀ h ∈ data, |h.x| ≤ 2 ^ 20 ∧ |h.y| ≤ 2 ^ 20)
    (neutron : List Int) (hlen : neutron.length = data.length) (hnum : Numbered neutron) (most : Nat)
    (hmost : most < n ∨ (InOrder data ∧ most ≤ n)) (hcoh : Coherent o.params.range r most data neutron)
    (hap : NeutronsApart o.params.range (r + 1 / 2 ^ 32) data neutron) : o'.labels = neutron := by
  have hll := (fitWith_gapless hn o o' data h).1
  have hr' : |r| ≤ 2 ^ 900 := hr.trans (pow_le_pow_right₀ (by norm_num) (by norm_num))
  have hpos' : ∀ h ∈ data, |h.x| ≤ 2 ^ 53 ∧ |h.y| ≤ 2 ^ 53 := by
    intro g hg
    have := hpos g hg
    exact ⟨this.1.trans (by norm_num), this.2.trans (by norm_num)⟩
  have key : ∀ i, i ≤ data.length → o'.labels.take i = neutron.take i := by
    intro i
    induction i with
    | zero => intro _; simp
    | succ i ih =>
      intro hi1
      have hi : i < data.length := by omega
      have hil : i < o'.labels.length := by omega
      have hin : i < neutron.length := by omega
      have e := ih (by omega)
      suffices hs : o'.labels[i] = neutron[i] by
        rw [List.take_add_one, List.take_add_one, e, List.getElem?_eq_getElem hil, List.getElem?_eq_getElem hin, hs]
      have hother : o'.labels[i] ∈ o'.labels.take i → o'.labels[i] = neutron[i] := by
        intro hold
        by_contra hne
        have hm := fitWith_matches hn o o' data h r hp hr hrange ht hpos i hi hil hold
        rw [e] at hm hold
        rcases hap i hi hin _ (List.mem_of_mem_take hold) hne with h1 | h1
        · exact h1 (NearBox.mono hm.2 members_take_sub)
        · have hlt : (data.take i).length = (neutron.take i).length := by rw [List.length_take, List.length_take, hlen]
          obtain ⟨g, hg, hhd, e'⟩ := startNs_mem hlt hold
          have h2 := hm.1
          rw [e'] at h2
          have := h1 g (members_take_sub g (List.mem_of_mem_head? hhd))
          omega
      by_cases hnew : o'.labels[i] ∈ o'.labels.take i
      · exact hother hnew
      · rcases hnum i hin with hold | hfirst
        · exfalso
          obtain ⟨hm, hc⟩ := hcoh i hi hin hold
          rw [← e] at hm hc hold
          obtain ⟨j1, j2⟩ := fitWith_joins hn o o' data h r hp hr' hrange ht hpos' i hi hil _ hold hm hnew
          rcases hmost with hmost | ⟨hord, hmost⟩
          · omega
          · have := j2 (hord.sublist (List.take_sublist i data))
            omega
        · rw [hfirst, fitWith_new hn o o' data h i hil hnew, e]
  have := key data.length le_rfl
  rwa [List.take_of_length_le (by omega), List.take_of_length_le (by omega)] at this

/-- C83: `neutron` tells for every hit of the batch which neutron caused it, in whatever order the hits of different neutrons
follow one another.  If every neutron is coherent, fewer than seven others starting meanwhile, and different neutrons are
apart in space or in time, then the labels are the neutrons. -/
theorem c83_interleaved (o o' : AbsObj) (data : List Hit) (h : o.fit data = .ok o') (r : ℚ)
    (hp : o.params.feature = .fin r) (hr : |r| ≤ 2 ^ 20) (hrange : o.params.range < 2 ^ 64)
    (ht : ∀ h ∈ data, h.spidertime.toNat < 2 ^ 48) (hpos : ∀ h ∈ data, |h.x| ≤ 2 ^ 20 ∧ |h.y| ≤ 2 ^ 20)
    (neutron : List Int) (hlen : neutron.length = data.length) (hnum : Numbered neutron)
    (hcoh : Coherent o.params.range r 7 data neutron) (hap : NeutronsApart o.params.range (r + 1 / 2 ^ 32) data neutron) :
    o'.labels = neutron :=
  fitWith_interleaved (n := numClusters) (by decide) o o' data h r hp hr hrange ht hpos neutron hlen hnum 7
    (Or.inl (by decide)) hcoh hap

/-- C83: eight when the hits are in order of time. -/
theorem c83_in_order (o o' : AbsObj) (data : List Hit) (h : o.fit data = .ok o') (r : ℚ)
    (hp : o.params.feature = .fin r) (hr : |r| ≤ 2 ^ 20) (hrange : o.params.range < 2 ^ 64)
    (ht : ∀ h ∈ data, h.spidertime.toNat < 2 ^ 48) (hpos : ∀ h ∈ data, |h.x| ≤ 2 ^ 20 ∧ |h.y| ≤ 2 ^ 20)
    (neutron : List Int) (hlen : neutron.length = data.length) (hnum : Numbered neutron) (hord : InOrder data)
    (hcoh : Coherent o.params.range r 8 data neutron) (hap : NeutronsApart o.params.range (r + 1 / 2 ^ 32) data neutron) :
    o'.labels = neutron :=
  fitWith_interleaved (n := numClusters) (by decide) o o' data h r hp hr hrange ht hpos neutron hlen hnum 8
    (Or.inr ⟨hord, by decide⟩) hcoh hap

/-- C83 for the legacy library: three, or four when the hits are in order of time. -/
theorem c83_legacy (o o' : AbsObj) (data : List Hit) (h : o.legacyFit data = .ok o') (r : ℚ)
    (hp : o.params.feature = .fin r) (hr : |r| ≤ 2 ^ 20) (hrange : o.params.range < 2 ^ 64)
    (ht : ∀ h ∈ data, h.spidertime.toNat < 2 ^ 48) (hpos : ∀ h ∈ data, |h.x| ≤ 2 ^ 20 ∧ |h.y| ≤ 2 ^ 20)
    (neutron : List Int) (hlen : neutron.length = data.length) (hnum : Numbered neutron) (most : Nat)
    (hmost : most ≤ 3 ∨ (InOrder data ∧ most ≤ 4)) (hcoh : Coherent o.params.range r most data neutron)
    (hap : NeutronsApart o.params.range (r + 1 / 2 ^ 32) data neutron) : o'.labels = neutron :=
  fitWith_interleaved (n := legacyClusters) (by decide) o o' data h r hp hr hrange ht hpos neutron hlen hnum most
    (by rcases hmost with h | ⟨h, h'⟩; exacts [Or.inl (by unfold legacyClusters; omega), Or.inr ⟨h, h'⟩]) hcoh hap

instance (r : ℚ) (l : List Int) (x : Int) : Decidable (NearSpan r l x) := by unfold NearSpan; infer_instance
instance (r : ℚ) (M : List Hit) (h : Hit) : Decidable (NearBox r M h) := by unfold NearBox; infer_instance
instance (range : Nat) (r : ℚ) (hits : List Hit) (ls : List Int) (l : Int) (h : Hit) : Decidable (Matches range r hits ls l h) := by
  unfold Matches; infer_instance
instance (range : Nat) (r : ℚ) (most : Nat) (hits : List Hit) (ls : List Int) : Decidable (Coherent range r most hits ls) := by
  unfold Coherent; infer_instance
instance (range : Nat) (r : ℚ) (hits : List Hit) (ls : List Int) : Decidable (NeutronsApart range r hits ls) := by
  unfold NeutronsApart; infer_instance
instance (hits : List Hit) : Decidable (InOrder hits) := by unfold InOrder; infer_instance

/-- `k` neutrons at the same time, 20 pixels apart, with three hits each; the first hits of all come first, then the second
hits, then the third. -/
def exMixed (k : Nat) : List Hit :=
  (List.range 3).flatMap fun (j : Nat) => (List.range k).map fun (i : Nat) =>
    ⟨20 * i + j, 10, 5, 0, 0, some 7#32, BitVec.ofNat 64 (100 + k * j + i)⟩

/-- Which neutron. -/
def exMixedOf (k : Nat) : List Int := (List.range 3).flatMap fun _ => (List.range k).map fun (i : Nat) => (i : Int)

example : (exMixed 8).length = 24 ∧ (exMixedOf 8).length = (exMixed 8).length ∧ Numbered (exMixedOf 8) ∧ InOrder (exMixed 8) ∧
    Coherent 1000 5 8 (exMixed 8) (exMixedOf 8) ∧ NeutronsApart 1000 (5 + 1 / 2 ^ 32) (exMixed 8) (exMixedOf 8) ∧
    ∀ h ∈ exMixed 8, h.spidertime.toNat < 2 ^ 48 ∧ |h.x| ≤ 2 ^ 20 ∧ |h.y| ≤ 2 ^ 20 := by
  decide +kernel

example : Numbered (exMixedOf 7) ∧ Coherent 1000 5 7 (exMixed 7) (exMixedOf 7) ∧
    NeutronsApart 1000 (5 + 1 / 2 ^ 32) (exMixed 7) (exMixedOf 7) := by
  decide +kernel

/-- C83: the bound on the number of neutrons is needed.  Nine neutrons, as coherent and as far apart as before, are taken for
twenty-seven: whenever a hit comes its cluster has just been given up. -/
theorem c83_false_nine : ∃ o', (AbsObj.new ⟨.fin 5, 1, 1000⟩).fit (exMixed 9) = .ok o' ∧
    o'.labels = (List.range 27).map (fun (i : Nat) => (i : Int)) ∧ InOrder (exMixed 9) ∧ Numbered (exMixedOf 9) ∧
    Coherent 1000 5 9 (exMixed 9) (exMixedOf 9) ∧ NeutronsApart 1000 (5 + 1 / 2 ^ 32) (exMixed 9) (exMixedOf 9) := by
  obtain ⟨o', h⟩ := c24_fit_returns (AbsObj.new ⟨.fin 5, 1, 1000⟩) (exMixed 9) (by decide)
  have e : ((AbsObj.new ⟨.fin 5, 1, 1000⟩).fit (exMixed 9)).bind (fun o => .ok o.labels) =
      .ok ((List.range 27).map (fun (i : Nat) => (i : Int))) := by
    decide +kernel
  rw [h] at e
  exact ⟨o', h, by simpa [Res.bind] using e, by decide +kernel⟩

end Verif.Props
