import Verif.Lemmas.AbsFit

/-!
# Properties of clustering (C24-C30)
-/

namespace Verif.Props

open Verif Verif.Spec

/-! ## C24: every hit gets a label, labels have no gaps -/

theorem fitWith_gapless {n : Nat} (hn : 0 < n)
    (o o' : AbsObj) (data : List Hit) (h : o.fitWith n data = .ok o') :
    o'.labels.length = data.length ∧ (∃ k : Nat, ∀ l : Int, l ∈ o'.labels ↔ 0 ≤ l ∧ l < k) ∧
    ∀ i (hi : i < o'.labels.length) (l : Int), 0 ≤ l → l < o'.labels[i] →
      ∃ j, ∃ hj : j < i, o'.labels[j] = l := by
  obtain ⟨k, slots, mx, inv, -⟩ := fitWith_inv hn h
  exact ⟨inv.len.symm, ⟨k, fun l => ⟨inv.lt l, fun hl => inv.used l hl.1 hl.2⟩⟩, inv.growth⟩

/-- C24: one label per hit, none negative (so none is -1), the labels are exactly `0 .. k-1`, and a label first
occurs after all smaller ones. -/
theorem c24_labels (o o' : AbsObj) (data : List Hit) (h : o.fit data = .ok o') :
    o'.labels.length = data.length ∧ (∃ k : Nat, ∀ l : Int, l ∈ o'.labels ↔ 0 ≤ l ∧ l < k) ∧
    ∀ i (hi : i < o'.labels.length) (l : Int), 0 ≤ l → l < o'.labels[i] →
      ∃ j, ∃ hj : j < i, o'.labels[j] = l :=
  fitWith_gapless (by decide) o o' data h

theorem fitWith_returns {n : Nat} (hn : 0 < n)
    (o : AbsObj) (data : List Hit) (ht : ∀ h ∈ data, h.spidertime.toNat ≤ 737869762948382016) :
    ∃ o', o.fitWith n data = .ok o' := by
  rcases fitWith_ok hn o data with h | ⟨_, g, hg, hn⟩
  · exact h
  · rw [toU64_none_iff] at hn
    have := ht g hg
    omega

/-- A first hit that is later makes `fit` undefined. -/
theorem fitWith_late {n : Nat} (hn : 0 < n) (o : AbsObj) (h : Hit) (data : List Hit)
    (ht : 737869762948382016 < h.spidertime.toNat) : o.fitWith n (h :: data) = .ub .floatToInt := by
  have hnone := (toU64_none_iff h).mpr ht
  obtain ⟨m, rfl⟩ : ∃ m, n = m + 1 := ⟨n - 1, by omega⟩
  have hs : ∃ s ss, initSlots (m + 1) = s :: ss ∧ s.size = 0 := by
    unfold initSlots
    rw [List.range_succ_eq_map]
    exact ⟨_, _, rfl, rfl⟩
  obtain ⟨s, ss, hss, h0⟩ := hs
  have hopen : openSlot s.label h = .ub .floatToInt := by unfold openSlot; rw [hnone]
  have hp : ∀ p, placeIn p h (initSlots (m + 1)) = .ub .floatToInt := by
    intro p
    rw [hss, placeIn, if_pos h0, hopen]
  unfold AbsObj.fitWith
  simp only [bind, Res.bind, fitLoop, fitStep, hp]

/-- C24: `fit` returns for every hit list with arrival times up to 737869762948382016 clock ticks (584 years). -/
theorem c24_fit_returns (o : AbsObj) (data : List Hit) (ht : ∀ h ∈ data, h.spidertime.toNat ≤ 737869762948382016) :
    ∃ o', o.fit data = .ok o' :=
  fitWith_returns (by decide) o data ht

/-- C24: that bound is exact. If the first hit is later, `fit` converts a value that does not fit into the integer.  C04
gives such times to hits shortly before a small global time. -/
theorem c24_late_undefined (o : AbsObj) (h : Hit) (data : List Hit) (ht : 737869762948382016 < h.spidertime.toNat) :
    o.fit (h :: data) = .ub .floatToInt :=
  fitWith_late (by decide) o h data ht

/-- Two far-away hits and one near the first, for the examples below. -/
def exHits : List Hit :=
  [⟨10, 10, 5, 0, 0, some 7#32, 100#64⟩, ⟨300, 20, 5, 0, 0, some 8#32, 100#64⟩,
   ⟨12, 11, 5, 0, 0, some 9#32, 101#64⟩]

example : ∃ o', (AbsObj.new ⟨.fin 5, 1, 75⟩).fit exHits = .ok o' := c24_fit_returns _ _ (by decide)

/-! ## C25: hits of one cluster are close in time -/

theorem members_append (a b : List Hit) (la lb : List Int) (l : Int) (h : a.length = la.length) :
    members (a ++ b) (la ++ lb) l = members a la l ++ members b lb l := by
  unfold members
  rw [List.zip_append h, List.filter_append, List.map_append]

/-- The first member of a cluster is the hit at the first position with its label. -/
theorem members_head (data : List Hit) (ls : List Int) (j : Nat) (hj : j < data.length) (hj' : j < ls.length)
    (hlen : data.length = ls.length) (hfirst : ∀ m (hm : m < j), ls[m] ≠ ls[j]) :
    (members data ls ls[j]).head? = some data[j] := by
  have e1 : data = data.take j ++ data[j] :: data.drop (j + 1) := by simp
  have e2 : ls = ls.take j ++ ls[j] :: ls.drop (j + 1) := by simp
  have h1 : members (data.take j) (ls.take j) ls[j] = [] := by
    apply members_nil_of_not_mem
    intro hm
    obtain ⟨m, hm1, hm2⟩ := List.getElem_of_mem hm
    rw [List.length_take] at hm1
    rw [List.getElem_take] at hm2
    exact hfirst m (by omega) hm2
  have h2 : members data ls ls[j] =
      members (data.take j) (ls.take j) ls[j] ++ members (data[j] :: data.drop (j + 1)) (ls[j] :: ls.drop (j + 1)) ls[j] := by
    rw [← members_append _ _ _ _ _ (by simp [hlen])]
    simp
  rw [h2, h1, List.nil_append]
  unfold members
  rw [List.zip_cons_cons, List.filter_cons_of_pos (by simp), List.map_cons, List.head?_cons]

theorem fitWith_first {n : Nat} (hn : 0 < n)
    (o o' : AbsObj) (data : List Hit) (h : o.fitWith n data = .ok o')
    (ht : ∀ h ∈ data, h.spidertime.toNat < 2 ^ 48) (hr : o.params.range < 2 ^ 64)
    (i j : Nat) (hi : i < data.length) (hj : j < data.length) (hi' : i < o'.labels.length)
    (hj' : j < o'.labels.length) (hsame : o'.labels[i] = o'.labels[j])
    (hfirst : ∀ m (hm : m < j), o'.labels[m] ≠ o'.labels[j]) :
    |arrivalNs data[i] - arrivalNs data[j]| ≤ o.params.range := by
  obtain ⟨k, slots, mx, inv, -⟩ := fitWith_inv hn h
  rcases Nat.lt_trichotomy i j with hlt | rfl | hgt
  · exact absurd hsame (hfirst i hlt)
  · simp
  · have hjt : j < (data.take i).length := by rw [List.length_take]; omega
    have hjt' : j < (o'.labels.take i).length := by rw [List.length_take]; omega
    have hhead := members_head (data.take i) (o'.labels.take i) j hjt hjt'
      (by rw [List.length_take, List.length_take, inv.len])
      (by intro m hm; rw [List.getElem_take, List.getElem_take]; exact hfirst m hm)
    rw [List.getElem_take, List.getElem_take, ← hsame] at hhead
    rcases inv.joined i hi hi' with hnil | ⟨s, hso, hacc⟩
    · rw [hnil] at hhead; simp at hhead
    · unfold Slot.accepts at hacc
      rw [Bool.and_eq_true] at hacc
      exact (accepts_time hso hhead (ht _ (List.getElem_mem hi)) (ht _ (List.getElem_mem hj)) hr).mp hacc.1

/-- C25: a hit differs from the first hit of its cluster by at most the time range. -/
theorem c25_first (o o' : AbsObj) (data : List Hit) (h : o.fit data = .ok o')
    (ht : ∀ h ∈ data, h.spidertime.toNat < 2 ^ 48) (hr : o.params.range < 2 ^ 64)
    (i j : Nat) (hi : i < data.length) (hj : j < data.length) (hi' : i < o'.labels.length)
    (hj' : j < o'.labels.length) (hsame : o'.labels[i] = o'.labels[j])
    (hfirst : ∀ m (hm : m < j), o'.labels[m] ≠ o'.labels[j]) :
    |arrivalNs data[i] - arrivalNs data[j]| ≤ o.params.range :=
  fitWith_first (by decide) o o' data h ht hr i j hi hj hi' hj' hsame hfirst

theorem fitWith_pair {n : Nat} (hn : 0 < n)
    (o o' : AbsObj) (data : List Hit) (h : o.fitWith n data = .ok o')
    (ht : ∀ h ∈ data, h.spidertime.toNat < 2 ^ 48) (hr : o.params.range < 2 ^ 64)
    (i j : Nat) (hi : i < data.length) (hj : j < data.length) (hi' : i < o'.labels.length)
    (hj' : j < o'.labels.length) (hsame : o'.labels[i] = o'.labels[j]) :
    |arrivalNs data[i] - arrivalNs data[j]| ≤ 2 * o.params.range := by
  have hlen := (fitWith_gapless hn o o' data h).1
  have hex : ∃ m, ∃ hm : m < o'.labels.length, o'.labels[m] = o'.labels[i] := ⟨i, hi', rfl⟩
  classical
  obtain ⟨hf, hfe⟩ := Nat.find_spec hex
  have hmin : ∀ m (hm : m < Nat.find hex), o'.labels[m] ≠ o'.labels[Nat.find hex] := by
    intro m hm e
    exact Nat.find_min hex hm ⟨by omega, e.trans hfe⟩
  have h1 := fitWith_first hn o o' data h ht hr i (Nat.find hex) hi (by omega) hi' hf hfe.symm hmin
  have h2 := fitWith_first hn o o' data h ht hr j (Nat.find hex) hj (by omega) hj' hf (hsame.symm.trans hfe.symm) hmin
  rw [abs_le] at h1 h2 ⊢
  omega

/-- C25: two hits with the same label differ by at most twice the time range. -/
theorem c25_pair (o o' : AbsObj) (data : List Hit) (h : o.fit data = .ok o')
    (ht : ∀ h ∈ data, h.spidertime.toNat < 2 ^ 48) (hr : o.params.range < 2 ^ 64)
    (i j : Nat) (hi : i < data.length) (hj : j < data.length) (hi' : i < o'.labels.length)
    (hj' : j < o'.labels.length) (hsame : o'.labels[i] = o'.labels[j]) :
    |arrivalNs data[i] - arrivalNs data[j]| ≤ 2 * o.params.range :=
  fitWith_pair (by decide) o o' data h ht hr i j hi hj hi' hj' hsame

/-! ## C26: hits of one cluster are spatially connected -/

/-- What joining a cluster means for the box, in rounded arithmetic. -/
theorem joined_box {p : AbsParams} {M : List Hit} {h : Hit} {r : ℚ} (hp : p.feature = .fin r) (hr : |r| ≤ 2 ^ 900)
    (hx : |h.x| ≤ 2 ^ 20) (hy : |h.y| ≤ 2 ^ 20) (hM : ∀ g ∈ M, |g.x| ≤ 2 ^ 20 ∧ |g.y| ≤ 2 ^ 20)
    (hj : Joined p M h) (hne : M ≠ []) :
    (∃ a ∈ M.map Hit.x, |a| ≤ 2 ^ 20 ∧ rndQ (a - r) ≤ h.x) ∧ (∃ a ∈ M.map Hit.x, |a| ≤ 2 ^ 20 ∧ (h.x : ℚ) ≤ rndQ (a + r)) ∧
    (∃ a ∈ M.map Hit.y, |a| ≤ 2 ^ 20 ∧ rndQ (a - r) ≤ h.y) ∧ (∃ a ∈ M.map Hit.y, |a| ≤ 2 ^ 20 ∧ (h.y : ℚ) ≤ rndQ (a + r)) := by
  rcases hj with hj | ⟨s, hso, hacc⟩
  · exact absurd hj hne
  · unfold Slot.accepts at hacc
    rw [Bool.and_eq_true, hp] at hacc
    have bx : ∀ a ∈ M.map Hit.x, |a| ≤ 2 ^ 20 := by
      intro a ha
      obtain ⟨g, hg, rfl⟩ := List.mem_map.mp ha
      exact (hM g hg).1
    have by' : ∀ a ∈ M.map Hit.y, |a| ≤ 2 ^ 20 := by
      intro a ha
      obtain ⟨g, hg, rfl⟩ := List.mem_map.mp ha
      exact (hM g hg).2
    have up : ∀ n : ℤ, |n| ≤ 2 ^ 20 → |n| ≤ 2 ^ 53 := fun n hn => hn.trans (by norm_num)
    obtain ⟨c1, c2, c3, c4⟩ := (box_iff s h r hr (up _ hx) (up _ hy) (up _ (bx _ hso.xmin.1)) (up _ (bx _ hso.xmax.1))
      (up _ (by' _ hso.ymin.1)) (up _ (by' _ hso.ymax.1))).mp hacc.2
    exact ⟨⟨_, hso.xmin.1, bx _ hso.xmin.1, c1⟩, ⟨_, hso.xmax.1, bx _ hso.xmax.1, c2⟩,
      ⟨_, hso.ymin.1, by' _ hso.ymin.1, c3⟩, ⟨_, hso.ymax.1, by' _ hso.ymax.1, c4⟩⟩

theorem mem_members {data : List Hit} {ls : List Int} {l : Int} {g : Hit} (h : g ∈ members data ls l) : g ∈ data := by
  unfold members at h
  obtain ⟨p, hp, rfl⟩ := List.mem_map.mp h
  exact (List.of_mem_zip (List.mem_of_mem_filter hp)).1

theorem members_ne_nil {data : List Hit} {ls : List Int} {l : Int} {j : Nat} (hj : j < data.length)
    (hj' : j < ls.length) (h : ls[j] = l) : members data ls l ≠ [] := by
  unfold members
  rw [Ne, List.map_eq_nil_iff, List.filter_eq_nil_iff]
  intro hall
  have hlt : j < (data.zip ls).length := by rw [List.length_zip]; omega
  have := hall _ (List.getElem_mem hlt)
  simp [h] at this

theorem fitWith_connected {n : Nat} (hn : 0 < n)
    (o o' : AbsObj) (data : List Hit) (h : o.fitWith n data = .ok o') (k : ℤ)
    (hp : o.params.feature = .fin (k / 1024)) (hk : |k| ≤ 2 ^ 40)
    (hb : ∀ h ∈ data, |h.x| ≤ 2 ^ 20 ∧ |h.y| ≤ 2 ^ 20) (i : Nat) (hi : i < data.length)
    (hi' : i < o'.labels.length) (j : Nat) (hj : j < i) (hsame : o'.labels[j] = o'.labels[i]) :
    NearBox (k / 1024) (members (data.take i) (o'.labels.take i) o'.labels[i]) data[i] := by
  obtain ⟨k', slots, mx, inv, -⟩ := fitWith_inv hn h
  have hkq : |(k : ℚ)| ≤ 2 ^ 40 := by rw [← Int.cast_abs]; exact_mod_cast hk
  have hr : |(k : ℚ) / 1024| ≤ 2 ^ 900 := by
    rw [abs_div, abs_of_pos (by norm_num : (0 : ℚ) < 1024)]
    have e1 : (2 : ℚ) ^ 40 ≤ 2 ^ 900 := pow_le_pow_right₀ (by norm_num) (by norm_num)
    have : |(k : ℚ)| / 1024 ≤ |(k : ℚ)| := div_le_self (abs_nonneg _) (by norm_num)
    exact this.trans (hkq.trans e1)
  have hne : members (data.take i) (o'.labels.take i) o'.labels[i] ≠ [] :=
    members_ne_nil (j := j) (by rw [List.length_take]; omega) (by rw [List.length_take]; omega)
      (by rw [List.getElem_take]; exact hsame)
  obtain ⟨⟨a1, m1, b1, c1⟩, ⟨a2, m2, b2, c2⟩, ⟨a3, m3, b3, c3⟩, ⟨a4, m4, b4, c4⟩⟩ :=
    joined_box hp hr (hb _ (List.getElem_mem hi)).1 (hb _ (List.getElem_mem hi)).2
      (fun g hg => hb g (List.mem_of_mem_take (mem_members hg))) (inv.joined i hi hi') hne
  have gs : ∀ a : ℤ, |a| ≤ 2 ^ 20 → rndQ ((a : ℚ) - k / 1024) = a - k / 1024 := by
    intro a ha
    apply rndQ_of_grid (1024 * a - k) (-10) _ (by norm_num)
    · rw [abs_le] at ha hk ⊢; omega
    · push_cast; norm_num; ring
  have ga : ∀ a : ℤ, |a| ≤ 2 ^ 20 → rndQ ((a : ℚ) + k / 1024) = a + k / 1024 := by
    intro a ha
    apply rndQ_of_grid (1024 * a + k) (-10) _ (by norm_num)
    · rw [abs_le] at ha hk ⊢; omega
    · push_cast; norm_num; ring
  rw [gs _ b1] at c1
  rw [ga _ b2] at c2
  rw [gs _ b3] at c3
  rw [ga _ b4] at c4
  exact ⟨⟨⟨a1, m1, by linarith⟩, ⟨a2, m2, by linarith⟩⟩, ⟨⟨a3, m3, by linarith⟩, ⟨a4, m4, by linarith⟩⟩⟩

/-- C26: a hit that is not the first of its cluster lies within the search radius of the bounding box of the
cluster's earlier hits; radii are multiples of 1/1024. -/
theorem c26_connected (o o' : AbsObj) (data : List Hit) (h : o.fit data = .ok o') (k : ℤ)
    (hp : o.params.feature = .fin (k / 1024)) (hk : |k| ≤ 2 ^ 40)
    (hb : ∀ h ∈ data, |h.x| ≤ 2 ^ 20 ∧ |h.y| ≤ 2 ^ 20) (i : Nat) (hi : i < data.length)
    (hi' : i < o'.labels.length) (j : Nat) (hj : j < i) (hsame : o'.labels[j] = o'.labels[i]) :
    NearBox (k / 1024) (members (data.take i) (o'.labels.take i) o'.labels[i]) data[i] :=
  fitWith_connected (by decide) o o' data h k hp hk hb i hi hi' j hj hsame

theorem fitWith_rounded {n : Nat} (hn : 0 < n)
    (o o' : AbsObj) (data : List Hit) (h : o.fitWith n data = .ok o') (r : ℚ)
    (hp : o.params.feature = .fin r) (hr : |r| ≤ 2 ^ 20)
    (hb : ∀ h ∈ data, |h.x| ≤ 2 ^ 20 ∧ |h.y| ≤ 2 ^ 20) (i : Nat) (hi : i < data.length)
    (hi' : i < o'.labels.length) (j : Nat) (hj : j < i) (hsame : o'.labels[j] = o'.labels[i]) :
    NearBox (r + 1 / 2 ^ 32) (members (data.take i) (o'.labels.take i) o'.labels[i]) data[i] := by
  obtain ⟨k', slots, mx, inv, -⟩ := fitWith_inv hn h
  have hr' : |r| ≤ 2 ^ 900 := hr.trans (pow_le_pow_right₀ (by norm_num) (by norm_num))
  have hne : members (data.take i) (o'.labels.take i) o'.labels[i] ≠ [] :=
    members_ne_nil (j := j) (by rw [List.length_take]; omega) (by rw [List.length_take]; omega)
      (by rw [List.getElem_take]; exact hsame)
  obtain ⟨⟨a1, m1, b1, c1⟩, ⟨a2, m2, b2, c2⟩, ⟨a3, m3, b3, c3⟩, ⟨a4, m4, b4, c4⟩⟩ :=
    joined_box hp hr' (hb _ (List.getElem_mem hi)).1 (hb _ (List.getElem_mem hi)).2
      (fun g hg => hb g (List.mem_of_mem_take (mem_members hg))) (inv.joined i hi hi') hne
  have cast : ∀ a : ℤ, |a| ≤ 2 ^ 20 → |(a : ℚ)| ≤ 2 ^ 20 := by
    intro a ha
    rw [← Int.cast_abs]; exact_mod_cast ha
  have gs : ∀ a : ℤ, |a| ≤ 2 ^ 20 → |rndQ ((a : ℚ) - r) - (a - r)| ≤ 1 / 2 ^ 32 := by
    intro a ha
    apply rndQ_abs_err
    refine (abs_sub _ _).trans ?_
    have := add_le_add (cast a ha) hr
    norm_num at this ⊢; exact this
  have ga : ∀ a : ℤ, |a| ≤ 2 ^ 20 → |rndQ ((a : ℚ) + r) - (a + r)| ≤ 1 / 2 ^ 32 := by
    intro a ha
    apply rndQ_abs_err
    refine (abs_add_le _ _).trans ?_
    have := add_le_add (cast a ha) hr
    norm_num at this ⊢; exact this
  have e1 := abs_le.mp (gs _ b1)
  have e2 := abs_le.mp (ga _ b2)
  have e3 := abs_le.mp (gs _ b3)
  have e4 := abs_le.mp (ga _ b4)
  exact ⟨⟨⟨a1, m1, by linarith⟩, ⟨a2, m2, by linarith⟩⟩, ⟨⟨a3, m3, by linarith⟩, ⟨a4, m4, by linarith⟩⟩⟩

/-- C26 for any radius: the rounding of the box edges adds at most 2^-32 pixel. -/
theorem c26_rounded (o o' : AbsObj) (data : List Hit) (h : o.fit data = .ok o') (r : ℚ)
    (hp : o.params.feature = .fin r) (hr : |r| ≤ 2 ^ 20)
    (hb : ∀ h ∈ data, |h.x| ≤ 2 ^ 20 ∧ |h.y| ≤ 2 ^ 20) (i : Nat) (hi : i < data.length)
    (hi' : i < o'.labels.length) (j : Nat) (hj : j < i) (hsame : o'.labels[j] = o'.labels[i]) :
    NearBox (r + 1 / 2 ^ 32) (members (data.take i) (o'.labels.take i) o'.labels[i]) data[i] :=
  fitWith_rounded (by decide) o o' data h r hp hr hb i hi hi' j hj hsame

/-! ## C27: clustering does not depend on earlier uses of the object -/

theorem call_params {solve : List GaussRow → F64 × F64} {o o' : AbsObj} {c : AbsObj.Call}
    (h : o.call solve c = .ok o') : o'.params = o.params := by
  cases c with
  | fit data => exact (fit_inv h).choose_spec.choose_spec.choose_spec.2.1
  | reset => simp only [AbsObj.call, Res.ok.injEq] at h; subst h; rfl
  | setMethod m => simp only [AbsObj.call, Res.ok.injEq] at h; subst h; rfl
  | getEvents data =>
    simp only [AbsObj.call] at h
    cases hg : o.getEvents solve data <;> rw [hg] at h <;> simp at h <;> subst h <;> rfl

theorem calls_params {solve : List GaussRow → F64 × F64} {cs : List AbsObj.Call} {o o' : AbsObj}
    (h : o.calls solve cs = .ok o') : o'.params = o.params := by
  induction cs generalizing o with
  | nil => simp only [AbsObj.calls, Res.ok.injEq] at h; rw [h]
  | cons c cs ih =>
    simp only [AbsObj.calls, bind, Res.bind] at h
    cases hc : o.call solve c with
    | ok o1 => rw [hc] at h; exact (ih h).trans (call_params hc)
    | throws e => rw [hc] at h; simp at h
    | ub u => rw [hc] at h; simp at h

/-- C27: after any sequence of calls, `fit` has the outcome it has on a new object: it fails in the same cases, and
otherwise the labels (and the index lists used by `get_events`) are the same. -/
theorem c27_history_independent (solve : List GaussRow → F64 × F64) (p : AbsParams) (cs : List AbsObj.Call)
    (o : AbsObj) (h : (AbsObj.new p).calls solve cs = .ok o) (data : List Hit) :
    ((o.fit data).bind fun o' => .ok (o'.labels, o'.indices)) =
      (((AbsObj.new p).fit data).bind fun o' => .ok (o'.labels, o'.indices)) := by
  have hp : o.params = p := calls_params h
  unfold AbsObj.fit AbsObj.fitWith
  simp only [AbsObj.resized, List.take_zero, List.nil_append, hp, AbsObj.new]
  generalize fitLoop p 0 data _ = F
  cases F with
  | ok st =>
    simp only [bind, Res.bind]
    cases indexLoop 0 st.labels (List.replicate (st.maxLabel + 1).toNat []) <;> rfl
  | throws e => rfl
  | ub u => rfl

/-! ## C28: clustering is online -/

theorem fitStep_frame (p : AbsParams) (i : Nat) (h : Hit) (sl : List Slot) (mx : Int) (L T : List Int)
    (hi : i < L.length) :
    fitStep p i h ⟨sl, mx, L ++ T⟩ =
      (fitStep p i h ⟨sl, mx, L⟩).bind fun st => .ok { st with labels := st.labels ++ T } := by
  unfold fitStep
  simp only
  cases placeIn p h sl with
  | ok r =>
    cases r with
    | some r => simp [Res.bind, List.set_append_left _ _ hi]
    | none =>
      simp only
      cases openSlot mx h with
      | ok s => simp [Res.bind, List.set_append_left _ _ hi]
      | throws e => rfl
      | ub u => rfl
  | throws e => rfl
  | ub u => rfl

theorem fitStep_labels_length {p : AbsParams} {i : Nat} {h : Hit} {st st' : FitState}
    (hs : fitStep p i h st = .ok st') : ∃ l, st'.labels = st.labels.set i l := by
  unfold fitStep at hs
  cases hp : placeIn p h st.slots with
  | ok r =>
    rw [hp] at hs
    cases r with
    | some r => simp only [Res.ok.injEq] at hs; subst hs; exact ⟨_, rfl⟩
    | none =>
      simp only at hs
      cases ho : openSlot st.maxLabel h with
      | ok s => rw [ho] at hs; simp only [Res.ok.injEq] at hs; subst hs; exact ⟨_, rfl⟩
      | throws e => rw [ho] at hs; simp at hs
      | ub u => rw [ho] at hs; simp at hs
  | throws e => rw [hp] at hs; simp at hs
  | ub u => rw [hp] at hs; simp at hs

theorem fitLoop_frame (p : AbsParams) (i : Nat) (hs : List Hit) (sl : List Slot) (mx : Int) (L T : List Int)
    (hi : i + hs.length ≤ L.length) :
    fitLoop p i hs ⟨sl, mx, L ++ T⟩ =
      (fitLoop p i hs ⟨sl, mx, L⟩).bind fun st => .ok { st with labels := st.labels ++ T } := by
  induction hs generalizing i sl mx L with
  | nil => rfl
  | cons h hs ih =>
    simp only [List.length_cons] at hi
    simp only [fitLoop, bind]
    rw [fitStep_frame p i h sl mx L T (by omega)]
    cases hst : fitStep p i h ⟨sl, mx, L⟩ with
    | ok st =>
      obtain ⟨l, hl⟩ := fitStep_labels_length hst
      simp only [Res.bind]
      exact ih (i + 1) st.slots st.maxLabel st.labels (by rw [hl, List.length_set]; simp only; omega)
    | throws e => rfl
    | ub u => rfl

theorem fitLoop_take {p : AbsParams} {i : Nat} {hs : List Hit} {st st' : FitState} (n : Nat) (hn : n ≤ i)
    (h : fitLoop p i hs st = .ok st') : st'.labels.take n = st.labels.take n := by
  induction hs generalizing i st with
  | nil => simp only [fitLoop, Res.ok.injEq] at h; rw [h]
  | cons a hs ih =>
    simp only [fitLoop, bind, Res.bind] at h
    cases hst : fitStep p i a st with
    | ok st1 =>
      rw [hst] at h
      obtain ⟨l, hl⟩ := fitStep_labels_length hst
      rw [ih (by omega) h, hl, List.take_set_of_le hn]
    | throws e => rw [hst] at h; simp at h
    | ub u => rw [hst] at h; simp at h

theorem fitWith_labels {n : Nat} {o o' : AbsObj} {data : List Hit} (h : o.fitWith n data = .ok o') :
    ∃ st, fitLoop o.params 0 data ⟨initSlots n, n, List.replicate data.length (-1)⟩ = .ok st ∧
      st.labels = o'.labels := by
  unfold AbsObj.fitWith at h
  simp only [AbsObj.resized, List.take_zero, List.nil_append, bind, Res.bind, List.length_nil, Nat.sub_zero] at h
  cases hF : fitLoop o.params 0 data ⟨initSlots n, n, List.replicate data.length (-1)⟩ with
  | ok st =>
    rw [hF] at h
    simp only at h
    refine ⟨st, rfl, ?_⟩
    cases hI : indexLoop 0 st.labels (List.replicate (st.maxLabel + 1).toNat []) with
    | ok idx => rw [hI] at h; simp only [Res.ok.injEq] at h; subst h; rfl
    | throws e => rw [hI] at h; simp at h
    | ub u => rw [hI] at h; simp at h
  | throws e => rw [hF] at h; simp at h
  | ub u => rw [hF] at h; simp at h

theorem fit_labels {o o' : AbsObj} {data : List Hit} (h : o.fit data = .ok o') :
    ∃ st, fitLoop o.params 0 data ⟨initSlots numClusters, numClusters, List.replicate data.length (-1)⟩ = .ok st ∧
      st.labels = o'.labels :=
  fitWith_labels h

theorem fitWith_online {n : Nat} (hn : 0 < n)
    (o o1 : AbsObj) (pre post : List Hit) (h : o.fitWith n (pre ++ post) = .ok o1) :
    ∃ o2, o.fitWith n pre = .ok o2 ∧ o2.labels = o1.labels.take pre.length := by
  obtain ⟨st, hst, hl⟩ := fitWith_labels h
  rw [fitLoop_append, List.length_append, ← List.replicate_append_replicate, fitLoop_frame _ _ _ _ _ _ _ (by simp)] at hst
  cases hpre : fitLoop o.params 0 pre ⟨initSlots n, n, List.replicate pre.length (-1)⟩ with
  | throws e => rw [hpre] at hst; simp [Res.bind] at hst
  | ub u => rw [hpre] at hst; simp [Res.bind] at hst
  | ok st1 =>
    rw [hpre] at hst
    simp only [Res.bind] at hst
    rcases fitWith_ok hn o pre with ⟨o2, h2⟩ | ⟨h2, _⟩
    · obtain ⟨st2, hst2, hl2⟩ := fitWith_labels h2
      rw [hpre] at hst2
      simp only [Res.ok.injEq] at hst2
      subst hst2
      refine ⟨o2, h2, ?_⟩
      have hlen := (fitWith_gapless hn o o2 pre h2).1
      rw [← hl, fitLoop_take pre.length (by omega) hst, hl2, ← hlen, List.take_left]
    · exfalso
      unfold AbsObj.fitWith at h2
      simp only [AbsObj.resized, List.take_zero, List.nil_append, bind, Res.bind, List.length_nil, Nat.sub_zero] at h2
      rw [hpre] at h2
      have hinv := fitLoop_inv pre [] [] (List.replicate pre.length (-1)) 0
        ⟨initSlots n, n, List.replicate pre.length (-1)⟩ st1 (FitInv.init hn o.params) (by simp) (by simp) hpre
      obtain ⟨ls2, k, e1, e2, inv⟩ := hinv
      have e1' : st1.labels = ls2 := by simpa using e1
      simp only [List.nil_append] at inv
      have hmx : 0 ≤ st1.maxLabel ∧ (k : Int) ≤ st1.maxLabel := by rw [inv.max]; omega
      obtain ⟨r, r1, -⟩ := indexLoop_spec 0 st1.labels (List.replicate (st1.maxLabel + 1).toNat [])
        (fun l hl => by
          rw [e1'] at hl
          have := inv.lt l hl
          rw [List.length_replicate]; omega)
      simp only at h2
      rw [r1] at h2
      simp at h2

/-- C28: the labels of a prefix of the hits are the prefix of the labels. -/
theorem c28_online (o o1 : AbsObj) (pre post : List Hit) (h : o.fit (pre ++ post) = .ok o1) :
    ∃ o2, o.fit pre = .ok o2 ∧ o2.labels = o1.labels.take pre.length :=
  fitWith_online (by decide) o o1 pre post h

/-! ## C29: well separated bursts are recovered -/

/-- A slot accepts a hit near its first member and near its box. -/
theorem accepts_of_near {p : AbsParams} {M : List Hit} {s : Slot} {h g : Hit} {r : ℚ} (hs : SlotOf M s)
    (hg : M.head? = some g) (ht : h.spidertime.toNat < 2 ^ 48) (htg : g.spidertime.toNat < 2 ^ 48)
    (hrange : p.range < 2 ^ 64) (hp : p.feature = .fin r) (hr : |r| ≤ 2 ^ 900)
    (hx : |h.x| ≤ 2 ^ 53 ∧ |h.y| ≤ 2 ^ 53) (hM : ∀ g ∈ M, |g.x| ≤ 2 ^ 53 ∧ |g.y| ≤ 2 ^ 53)
    (hnear : |arrivalNs h - arrivalNs g| ≤ p.range) (hbox : NearBox r M h) : s.accepts p h = true := by
  have bx : ∀ a ∈ M.map Hit.x, |a| ≤ 2 ^ 53 := by
    intro a ha
    obtain ⟨g, hg, rfl⟩ := List.mem_map.mp ha
    exact (hM g hg).1
  have by' : ∀ a ∈ M.map Hit.y, |a| ≤ 2 ^ 53 := by
    intro a ha
    obtain ⟨g, hg, rfl⟩ := List.mem_map.mp ha
    exact (hM g hg).2
  have lo : ∀ {v a x : ℤ}, |x| ≤ 2 ^ 53 → v ≤ a → (a : ℚ) ≤ x + r → rndQ (v - r) ≤ x := by
    intro v a x hx hva hax
    have h1 : (v : ℚ) - r ≤ (x : ℚ) := by
      have : (v : ℚ) ≤ a := by exact_mod_cast hva
      linarith
    have h2 := rndQ_mono h1
    rwa [rndQ_int hx] at h2
  have hi : ∀ {v a x : ℤ}, |x| ≤ 2 ^ 53 → a ≤ v → (x : ℚ) ≤ a + r → (x : ℚ) ≤ rndQ (v + r) := by
    intro v a x hx hva hax
    have h1 : (x : ℚ) ≤ (v : ℚ) + r := by
      have : (a : ℚ) ≤ v := by exact_mod_cast hva
      linarith
    have h2 := rndQ_mono h1
    rwa [rndQ_int hx] at h2
  obtain ⟨⟨⟨a1, m1, c1⟩, ⟨a2, m2, c2⟩⟩, ⟨⟨a3, m3, c3⟩, ⟨a4, m4, c4⟩⟩⟩ := hbox
  unfold Slot.accepts
  rw [Bool.and_eq_true, hp]
  refine ⟨(accepts_time hs hg ht htg hrange).mpr hnear, ?_⟩
  exact (box_iff s h r hr hx.1 hx.2 (bx _ hs.xmin.1) (bx _ hs.xmax.1) (by' _ hs.ymin.1) (by' _ hs.ymax.1)).mpr
    ⟨lo hx.1 (hs.xmin.2 _ m1) c1, hi hx.1 (hs.xmax.2 _ m2) c2, lo hx.2 (hs.ymin.2 _ m3) c3, hi hx.2 (hs.ymax.2 _ m4) c4⟩

/-- Conditions on all hits and parameters in C29. -/
structure BurstCtx (p : AbsParams) (r : ℚ) (all : List Hit) : Prop where
  feature : p.feature = .fin r
  radius : |r| ≤ 2 ^ 900
  range : p.range < 2 ^ 64
  time : ∀ h ∈ all, h.spidertime.toNat < 2 ^ 48
  pos : ∀ h ∈ all, |h.x| ≤ 2 ^ 53 ∧ |h.y| ≤ 2 ^ 53

/-- A hit that is more than the range away from all earlier hits is accepted by no slot. -/
theorem no_accept {p : AbsParams} {r : ℚ} {all done : List Hit} {ls : List Int} {k : Nat} {slots : List Slot}
    {mx : Int} {h : Hit} (ctx : BurstCtx p r all) (hdone : ∀ g ∈ done, g ∈ all) (hh : h ∈ all)
    (inv : FitInv n p done ls k slots mx) (s : Slot) (hs : s ∈ slots) (hz : s.size ≠ 0)
    (hfar : ∀ g ∈ members done ls s.label, (p.range : Int) < |arrivalNs h - arrivalNs g|) : s.accepts p h = false := by
  have hso := inv.slotOf s hs hz
  obtain ⟨g, M', hM⟩ := List.exists_cons_of_ne_nil hso.ne
  have hg : (members done ls s.label).head? = some g := by rw [hM]; rfl
  have hgm : g ∈ members done ls s.label := by rw [hM]; simp
  by_contra hacc
  have hacc : s.accepts p h = true := by simpa using hacc
  unfold Slot.accepts at hacc
  rw [Bool.and_eq_true] at hacc
  have := (accepts_time hso hg (ctx.time _ hh) (ctx.time _ (hdone _ (mem_members hgm))) ctx.range).mp hacc.1
  have := hfar g hgm
  omega

theorem members_replicate (b : List Hit) (l : Int) : members b (List.replicate b.length l) l = b := by
  induction b with
  | nil => rfl
  | cons a b ih =>
    unfold members at ih ⊢
    rw [List.length_cons, List.replicate_succ, List.zip_cons_cons, List.filter_cons_of_pos (by simp),
      List.map_cons, ih]

theorem members_replicate_ne (b : List Hit) (l x : Int) (n : Nat) (h : l ≠ x) : members b (List.replicate n l) x = [] := by
  apply members_nil_of_not_mem
  intro hm
  exact h (List.eq_of_mem_replicate hm).symm

/-- The rest of a burst, `bpre` being the part already clustered as cluster `m`. -/
theorem fit_rest {p : AbsParams} {r : ℚ} {all : List Hit} (ctx : BurstCtx p r all) (m : Nat) (first : Hit)
    (rest bpre done0 : List Hit) (ls0 : List Int) (tail : List Int) (st st' : FitState)
    (hfirst : bpre.head? = some first)
    (hall : ∀ g ∈ done0 ++ (bpre ++ rest), g ∈ all) (hlen0 : done0.length = ls0.length)
    (hls0 : ∀ l ∈ ls0, l < (m : Int))
    (hfar : ∀ g ∈ done0, ∀ h ∈ rest, (p.range : Int) < |arrivalNs h - arrivalNs g|)
    (hcomp : Compact p.range r first bpre rest)
    (inv : FitInv n p (done0 ++ bpre) (ls0 ++ List.replicate bpre.length (m : Int)) (m + 1) st.slots st.maxLabel)
    (hlab : st.labels = (ls0 ++ List.replicate bpre.length (m : Int)) ++ tail) (htail : rest.length ≤ tail.length)
    (hok : fitLoop p (done0 ++ bpre).length rest st = .ok st') :
    FitInv n p (done0 ++ (bpre ++ rest)) (ls0 ++ List.replicate (bpre ++ rest).length (m : Int)) (m + 1) st'.slots st'.maxLabel ∧
      st'.labels = (ls0 ++ List.replicate (bpre ++ rest).length (m : Int)) ++ tail.drop rest.length := by
  induction rest generalizing bpre tail st with
  | nil =>
    simp only [fitLoop, Res.ok.injEq] at hok
    subst hok
    simp only [List.append_nil, List.length_nil, List.drop_zero]
    exact ⟨inv, hlab⟩
  | cons h rest ih =>
    simp only [fitLoop, bind, Res.bind] at hok
    cases hstep : fitStep p (done0 ++ bpre).length h st with
    | throws e => rw [hstep] at hok; simp at hok
    | ub u => rw [hstep] at hok; simp at hok
    | ok st1 =>
      rw [hstep] at hok
      simp only at hok
      obtain ⟨hnear, hbox, hcomp'⟩ := hcomp
      have hh : h ∈ all := hall h (by simp)
      obtain ⟨l, k', hl, inv', hcase⟩ := inv.step hstep
      have hmem : ∀ x : Int, members (done0 ++ bpre) (ls0 ++ List.replicate bpre.length (m : Int)) x =
          members done0 ls0 x ++ members bpre (List.replicate bpre.length (m : Int)) x :=
        fun x => members_append _ _ _ _ _ hlen0
      have hmem_m : members (done0 ++ bpre) (ls0 ++ List.replicate bpre.length (m : Int)) m = bpre := by
        rw [hmem, members_replicate, members_nil_of_not_mem, List.nil_append]
        intro hm
        have := hls0 _ hm; omega
      have hrej : ∀ s ∈ st.slots, s.size ≠ 0 → s.label ≠ m → s.accepts p h = false := by
        intro s hs hz hne
        refine no_accept ctx (fun g hg => hall g ?_) hh inv s hs hz ?_
        · rcases List.mem_append.mp hg with hg | hg <;> simp [hg]
        · intro g hg
          rw [hmem, members_replicate_ne _ _ _ _ (Ne.symm hne), List.append_nil] at hg
          exact hfar g (mem_members hg) h (by simp)
      have hlm : l = m ∧ k' = m + 1 := by
        rcases hcase with ⟨hlk, hk', hall'⟩ | ⟨hk', s, hs, hz, hsl, hacc, _⟩
        · exfalso
          obtain ⟨s, hs, hz, hsl⟩ := inv.newest (by omega)
          have hsl' : s.label = m := by rw [hsl]; push_cast; ring
          have hso := inv.slotOf s hs hz
          rw [hsl', hmem_m] at hso
          have hfm : first ∈ bpre := List.mem_of_mem_head? hfirst
          have := accepts_of_near hso hfirst (ctx.time _ hh) (ctx.time _ (hall _ (by simp [hfm]))) ctx.range
            ctx.feature ctx.radius (ctx.pos _ hh) (fun g hg => ctx.pos _ (hall _ (by simp [hg]))) hnear hbox
          rw [hall' s hs hz] at this
          simp at this
        · refine ⟨?_, hk'⟩
          by_contra hne
          have := hrej s hs hz (by rw [hsl]; exact hne)
          rw [hacc] at this
          simp at this
      obtain ⟨rfl, rfl⟩ := hlm
      cases tail with
      | nil => simp at htail
      | cons a tail =>
        have hrep : ls0 ++ List.replicate bpre.length (m : Int) ++ [(m : Int)] =
            ls0 ++ List.replicate (bpre ++ [h]).length (m : Int) := by
          rw [List.append_assoc, ← List.replicate_succ', List.length_append, List.length_singleton]
        rw [hrep, List.append_assoc] at inv'
        have hset : st1.labels = (ls0 ++ List.replicate (bpre ++ [h]).length (m : Int)) ++ tail := by
          rw [hl, hlab, inv.len, List.set_append_right _ _ (Nat.le_refl _), Nat.sub_self, ← hrep]
          simp
        have := ih (bpre ++ [h]) tail st1 (by cases bpre with | nil => simp at hfirst | cons b bs => simpa using hfirst)
          (by simpa using hall) (fun g hg a ha => hfar g hg a (by simp [ha])) hcomp' inv' hset
          (by simpa using htail) (by simpa [Nat.add_assoc] using hok)
        simpa using this

/-- All bursts from number `m` on. -/
theorem fit_bursts {p : AbsParams} {r : ℚ} {all : List Hit} (ctx : BurstCtx p r all) (bursts : List (List Hit))
    (m : Nat) (done0 : List Hit) (ls0 tail : List Int) (st st' : FitState)
    (hall : ∀ g ∈ done0 ++ bursts.flatten, g ∈ all)
    (hfar : ∀ g ∈ done0, ∀ h ∈ bursts.flatten, (p.range : Int) < |arrivalNs h - arrivalNs g|)
    (hb : ∀ b ∈ bursts, IsBurst p.range r b) (hsep : Separated p.range bursts)
    (inv : FitInv n p done0 ls0 m st.slots st.maxLabel) (hlab : st.labels = ls0 ++ tail)
    (htail : bursts.flatten.length ≤ tail.length) (hok : fitLoop p done0.length bursts.flatten st = .ok st') :
    st'.labels = ls0 ++ burstNumbers m bursts ++ tail.drop bursts.flatten.length := by
  induction bursts generalizing m done0 ls0 tail st with
  | nil =>
    simp only [List.flatten_nil, fitLoop, Res.ok.injEq] at hok
    subst hok
    simp [burstNumbers, hlab]
  | cons b bs ih =>
    have hbb := hb b (by simp)
    cases b with
    | nil => exact absurd hbb (by simp [IsBurst])
    | cons h rest =>
      rw [List.flatten_cons, fitLoop_append] at hok
      cases hb1 : fitLoop p done0.length (h :: rest) st with
      | throws e => rw [hb1] at hok; simp [Res.bind] at hok
      | ub u => rw [hb1] at hok; simp [Res.bind] at hok
      | ok st2 =>
        rw [hb1] at hok
        simp only [Res.bind] at hok
        simp only [fitLoop, bind, Res.bind] at hb1
        cases hstep : fitStep p done0.length h st with
        | throws e => rw [hstep] at hb1; simp at hb1
        | ub u => rw [hstep] at hb1; simp at hb1
        | ok st1 =>
          rw [hstep] at hb1
          simp only at hb1
          have hh : h ∈ all := hall h (by simp)
          obtain ⟨l, k', hl, inv', hcase⟩ := inv.step hstep
          have hlm : l = m ∧ k' = m + 1 := by
            rcases hcase with ⟨hlk, hk', hall'⟩ | ⟨hk', s, hs, hz, hsl, hacc, _⟩
            · exact ⟨hlk, hk'⟩
            · exfalso
              have := no_accept ctx (fun g hg => hall g (by simp [hg])) hh inv s hs hz
                (fun g hg => hfar g (mem_members hg) h (by simp))
              rw [hacc] at this
              simp at this
          obtain ⟨rfl, rfl⟩ := hlm
          cases tail with
          | nil => simp at htail
          | cons a tail =>
            have hset : st1.labels = (ls0 ++ List.replicate [h].length (m : Int)) ++ tail := by
              rw [hl, hlab, inv.len, List.set_append_right _ _ (Nat.le_refl _), Nat.sub_self]
              simp
            have htl : rest.length ≤ tail.length := by simp at htail; omega
            obtain ⟨inv2, hl2⟩ := fit_rest ctx m h rest [h] done0 ls0 tail st1 st2 rfl
              (by
                intro g hg
                apply hall
                simp only [List.mem_append, List.mem_cons, List.not_mem_nil, or_false, List.flatten_cons] at hg ⊢
                tauto)
              inv.len (fun l hl => (inv.lt l hl).2) (fun g hg a ha => hfar g hg a (by simp [ha])) hbb
              (by simpa using inv') hset htl (by simpa using hb1)
            rw [List.singleton_append] at inv2 hl2
            unfold Separated at hsep
            rw [List.pairwise_cons] at hsep
            have hfin := ih (m + 1) (done0 ++ h :: rest) (ls0 ++ List.replicate (h :: rest).length (m : Int))
              (tail.drop rest.length) st2
              (by intro g hg; apply hall; simpa using hg)
              (by
                intro g hg a ha
                rcases List.mem_append.mp hg with hg | hg
                · exact hfar g hg a (by rw [List.flatten_cons]; exact List.mem_append_right _ ha)
                · obtain ⟨b', hb', hab⟩ := List.mem_flatten.mp ha
                  exact hsep.1 b' hb' g hg a hab)
              (fun b' hb' => hb b' (by simp [hb'])) hsep.2 inv2 hl2
              (by
                rw [List.length_drop]
                simp only [List.flatten_cons, List.length_append, List.length_cons] at htail
                omega)
              (by rw [List.length_append]; exact hok)
            rw [hfin, burstNumbers, List.drop_drop, List.flatten_cons, List.length_append, List.length_cons,
              show rest.length + 1 + bs.flatten.length = (rest.length + bs.flatten.length) + 1 by omega,
              List.drop_succ_cons, List.append_assoc, List.append_assoc, List.append_assoc, List.append_assoc]

theorem fitWith_bursts {n : Nat} (hn : 0 < n)
    (o o' : AbsObj) (bursts : List (List Hit)) (h : o.fitWith n bursts.flatten = .ok o') (r : ℚ)
    (hp : o.params.feature = .fin r) (hr : |r| ≤ 2 ^ 900) (hrange : o.params.range < 2 ^ 64)
    (ht : ∀ h ∈ bursts.flatten, h.spidertime.toNat < 2 ^ 48)
    (hpos : ∀ h ∈ bursts.flatten, |h.x| ≤ 2 ^ 53 ∧ |h.y| ≤ 2 ^ 53)
    (hb : ∀ b ∈ bursts, IsBurst o.params.range r b) (hsep : Separated o.params.range bursts) :
    o'.labels = burstNumbers 0 bursts := by
  obtain ⟨st, hst, hl⟩ := fitWith_labels h
  have := fit_bursts (all := bursts.flatten) ⟨hp, hr, hrange, ht, hpos⟩ bursts 0 [] []
    (List.replicate bursts.flatten.length (-1)) _ st (by simp) (by simp) hb hsep (FitInv.init hn o.params) rfl (by simp) hst
  rw [← hl, this]
  simp

/-- C29: the label of every hit is the number of its burst, for any number of bursts. -/
theorem c29_bursts (o o' : AbsObj) (bursts : List (List Hit)) (h : o.fit bursts.flatten = .ok o') (r : ℚ)
    (hp : o.params.feature = .fin r) (hr : |r| ≤ 2 ^ 900) (hrange : o.params.range < 2 ^ 64)
    (ht : ∀ h ∈ bursts.flatten, h.spidertime.toNat < 2 ^ 48)
    (hpos : ∀ h ∈ bursts.flatten, |h.x| ≤ 2 ^ 53 ∧ |h.y| ≤ 2 ^ 53)
    (hb : ∀ b ∈ bursts, IsBurst o.params.range r b) (hsep : Separated o.params.range bursts) :
    o'.labels = burstNumbers 0 bursts :=
  fitWith_bursts (by decide) o o' bursts h r hp hr hrange ht hpos hb hsep

/-- Ten bursts (more than the eight open clusters) of two hits each. -/
def exBursts : List (List Hit) :=
  (List.range 10).map fun (i : Nat) =>
    [⟨10, 10, 5, 0, 0, some 7#32, BitVec.ofNat 64 (100 * i)⟩, ⟨12, 9, 5, 0, 0, some 7#32, BitVec.ofNat 64 (100 * i + 1)⟩]

example : ∀ h ∈ exBursts.flatten, h.spidertime.toNat < 2 ^ 48 ∧ |h.x| ≤ 2 ^ 53 ∧ |h.y| ≤ 2 ^ 53 := by
  decide

theorem exBursts_ok : (∀ b ∈ exBursts, IsBurst 75 5 b) ∧ Separated 75 exBursts := by
  constructor
  · intro b hb
    unfold exBursts at hb
    obtain ⟨i, hi, rfl⟩ := List.mem_map.mp hb
    have hi := List.mem_range.mp hi
    refine ⟨?_, ⟨⟨⟨10, by simp, by norm_num⟩, ⟨10, by simp, by norm_num⟩⟩, ⟨⟨10, by simp, by norm_num⟩, ⟨10, by simp, by norm_num⟩⟩⟩, trivial⟩
    unfold arrivalNs
    simp only [BitVec.toNat_ofNat]
    rw [abs_le]; omega
  · unfold Separated exBursts
    rw [List.pairwise_map]
    have : (List.range 10).Pairwise fun a b => a < b ∧ b < 10 := by decide
    refine this.imp ?_
    intro a b hab g hg h hh
    simp only [List.mem_cons, List.not_mem_nil, or_false] at hg hh
    have ht : ∀ n : Nat, n < 2000 → (BitVec.ofNat 64 n).toNat = n := fun n hn => by
      rw [BitVec.toNat_ofNat]; exact Nat.mod_eq_of_lt (hn.trans (by norm_num))
    have e1 := ht (100 * a) (by omega)
    have e2 := ht (100 * a + 1) (by omega)
    have e3 := ht (100 * b) (by omega)
    have e4 := ht (100 * b + 1) (by omega)
    rcases hg with rfl | rfl <;> rcases hh with rfl | rfl <;>
      (unfold arrivalNs; simp only [e1, e2, e3, e4]; rw [lt_abs]; push_cast; left; omega)

/-- Twenty hits, two of them with the same label: the hypotheses of C25 to C29 are met. -/
example : ∃ o', (AbsObj.new ⟨.fin 5, 1, 75⟩).fit exBursts.flatten = .ok o' ∧
    o'.labels = [0, 0, 1, 1, 2, 2, 3, 3, 4, 4, 5, 5, 6, 6, 7, 7, 8, 8, 9, 9] := by
  obtain ⟨o', h⟩ := c24_fit_returns (AbsObj.new ⟨.fin 5, 1, 75⟩) exBursts.flatten (by decide)
  refine ⟨o', h, ?_⟩
  have h5 : |(5 : ℚ)| ≤ 2 ^ 900 := by
    rw [abs_of_pos (by norm_num)]
    calc (5 : ℚ) ≤ 2 ^ 3 := by norm_num
      _ ≤ 2 ^ 900 := pow_le_pow_right₀ (by norm_num) (by norm_num)
  rw [c29_bursts _ o' exBursts h 5 rfl h5 (by simp [AbsObj.new]) (by decide) (by decide) exBursts_ok.1 exBursts_ok.2]
  decide

/-! ## C30: misuse of `get_events` is reported -/

/-- The labels and index lists of an object after any history. -/
structure Consistent (o : AbsObj) : Prop where
  labels : ∀ l ∈ o.labels, 0 ≤ l ∧ l.toNat < o.indices.length
  indices : o.labels ≠ [] → ∀ l : Nat, l < o.indices.length → o.indices[l]? = some (positions 0 o.labels l)

theorem fitWith_consistent {n : Nat} (hn : 0 < n)
    {o o' : AbsObj} {data : List Hit} (h : o.fitWith n data = .ok o') : Consistent o' := by
  obtain ⟨k, slots, mx, inv, -, -, hlen, hidx⟩ := fitWith_inv hn h
  refine ⟨fun l hl => ?_, fun _ => hidx⟩
  have h1 := inv.lt l hl
  have h2 := inv.max
  omega

theorem fit_consistent {o o' : AbsObj} {data : List Hit} (h : o.fit data = .ok o') : Consistent o' :=
  fitWith_consistent (by decide) h

theorem calls_consistent {solve : List GaussRow → F64 × F64} {cs : List AbsObj.Call} {o o' : AbsObj}
    (hc : Consistent o) (h : o.calls solve cs = .ok o') : Consistent o' := by
  induction cs generalizing o with
  | nil => simp only [AbsObj.calls, Res.ok.injEq] at h; rw [← h]; exact hc
  | cons c cs ih =>
    simp only [AbsObj.calls, bind, Res.bind] at h
    cases hcall : o.call solve c with
    | throws e => rw [hcall] at h; simp at h
    | ub u => rw [hcall] at h; simp at h
    | ok o1 =>
      rw [hcall] at h
      refine ih ?_ h
      cases c with
      | fit data => exact fit_consistent hcall
      | reset =>
        simp only [AbsObj.call, Res.ok.injEq] at hcall
        subst hcall
        exact ⟨by simp [AbsObj.reset], by simp [AbsObj.reset]⟩
      | setMethod m =>
        simp only [AbsObj.call, Res.ok.injEq] at hcall
        subst hcall
        exact ⟨hc.labels, hc.indices⟩
      | getEvents data =>
        simp only [AbsObj.call] at hcall
        cases hg : o.getEvents solve data <;> rw [hg] at hcall <;> simp at hcall <;> subst hcall <;> exact hc

theorem centroidLoop_ub (w : Bool) (sr : F64) (a : CentroidAcc) (hs : List Hit) :
    (∃ r, centroidLoop w sr a hs = .ok r) ∨
      (centroidLoop w sr a hs = .ub .indeterminate ∧ ∃ h ∈ hs, h.tof = none) := by
  induction hs generalizing a with
  | nil => left; exact ⟨a, rfl⟩
  | cons h hs ih =>
    simp only [centroidLoop, bind, Res.bind]
    unfold centroidStep
    cases ht : h.tof with
    | none => right; exact ⟨rfl, h, by simp, ht⟩
    | some t =>
      simp only
      rcases ih _ with h1 | ⟨h1, g, hg, hn⟩
      · left; exact h1
      · right; exact ⟨h1, g, by simp [hg], hn⟩

theorem centroidFit_ub (w : Bool) (sr : F64) (hs : List Hit) :
    (∃ r, centroidFit w sr hs = .ok r) ∨ (centroidFit w sr hs = .ub .indeterminate ∧ ∃ h ∈ hs, h.tof = none) := by
  unfold centroidFit
  by_cases h0 : hs.length = 0
  · rw [if_pos h0]; left; exact ⟨_, rfl⟩
  · rw [if_neg h0]
    simp only [bind, Res.bind]
    rcases centroidLoop_ub w sr ⟨F64.ofRat 0, F64.ofRat 0, F64.ofRat 0, F64.ofRat 0⟩ hs with ⟨r, h1⟩ | ⟨h1, h2⟩
    · left; rw [h1]; exact ⟨_, rfl⟩
    · right; rw [h1]; exact ⟨rfl, h2⟩

theorem gaussRows_ub (sr : F64) (hs : List Hit) :
    (∃ r, gaussRows sr hs = .ok r ∧ r.length = hs.length) ∨
      (gaussRows sr hs = .ub .indeterminate ∧ ∃ h ∈ hs, h.tof = none) := by
  induction hs with
  | nil => left; exact ⟨[], rfl, rfl⟩
  | cons h hs ih =>
    simp only [gaussRows, bind, Res.bind]
    unfold gaussRow
    cases ht : h.tof with
    | none => right; exact ⟨rfl, h, by simp, ht⟩
    | some t =>
      simp only
      rcases ih with ⟨r, h1, h2⟩ | ⟨h1, g, hg, hn⟩
      · left; rw [h1]; exact ⟨_, rfl, by simp [h2]⟩
      · right; rw [h1]; exact ⟨rfl, g, by simp [hg], hn⟩

theorem getMedian_ok (l : List F64) (h : l ≠ []) : ∃ m, getMedian l = .ok m := by
  unfold getMedian
  have hpos : 0 < (l.mergeSort fun a b => F64.le a b).length := by
    rw [List.length_mergeSort]; exact List.length_pos_iff.mpr h
  simp only
  generalize l.mergeSort (fun a b => F64.le a b) = s at hpos
  have h1 : s.length / 2 < s.length := by omega
  have h2 : s.length / 2 - 1 < s.length := by omega
  rw [List.getElem?_eq_getElem h1, List.getElem?_eq_getElem h2]
  split_ifs <;> exact ⟨_, rfl⟩

theorem fastGaussianFit_ub (solve : List GaussRow → F64 × F64) (sr : F64) (hs : List Hit) :
    (∃ r, fastGaussianFit solve sr hs = .ok r) ∨
      (fastGaussianFit solve sr hs = .ub .indeterminate ∧ ∃ h ∈ hs, h.tof = none) := by
  unfold fastGaussianFit
  split_ifs with h8
  · left; exact ⟨_, rfl⟩
  · simp only [bind, Res.bind]
    rcases gaussRows_ub sr hs with ⟨r, h1, h2⟩ | ⟨h1, h2⟩
    · left
      rw [h1]
      simp only
      obtain ⟨m, hm⟩ := getMedian_ok (r.map GaussRow.tot) (by
        intro e
        rw [List.map_eq_nil_iff] at e
        rw [e] at h2
        simp at h2
        omega)
      rw [hm]
      exact ⟨_, rfl⟩
    · right; rw [h1]; exact ⟨rfl, h2⟩

theorem algorithm_ub {solve : List GaussRow → F64 × F64} {m : String} {alg : List Hit → Res Neutron}
    (h : AbsObj.algorithm solve m = some alg) (hs : List Hit) :
    (∃ r, alg hs = .ok r) ∨ (alg hs = .ub .indeterminate ∧ ∃ h ∈ hs, h.tof = none) := by
  unfold AbsObj.algorithm at h
  split_ifs at h <;> simp only [Option.some.injEq] at h <;> subst h
  · exact centroidFit_ub _ _ _
  · exact fastGaussianFit_ub _ _ _

theorem eventLoop_ub {o : AbsObj} (alg : List Hit → Res Neutron) (data : List Hit) (hc : Consistent o)
    (hne : o.labels ≠ []) (hlen : o.labels.length = data.length)
    (halg : ∀ hs, (∃ r, alg hs = .ok r) ∨ (alg hs = .ub .indeterminate ∧ ∃ h ∈ hs, h.tof = none))
    (fuel l : Nat) (hfuel : l + fuel ≤ o.indices.length) :
    (∃ r, o.eventLoop alg data fuel l = .ok r) ∨
      (o.eventLoop alg data fuel l = .ub .indeterminate ∧ ∃ h ∈ data, h.tof = none) := by
  induction fuel generalizing l with
  | zero => left; exact ⟨[], rfl⟩
  | succ fuel ih =>
    rw [AbsObj.eventLoop, hc.indices hne l (by omega)]
    have hg := gather_positions [] data o.labels l hlen.symm
    rw [List.nil_append] at hg
    simp only [List.length_nil] at hg
    simp only [bind, Res.bind, hg]
    split_ifs
    · exact ih (l + 1) (by omega)
    · rcases halg (members data o.labels l) with ⟨r, h1⟩ | ⟨h1, g, hg', hn⟩
      · rw [h1]
        simp only
        rcases ih (l + 1) (by omega) with ⟨r2, h2⟩ | ⟨h2, h3⟩
        · left; rw [h2]; exact ⟨_, rfl⟩
        · right; rw [h2]; exact ⟨rfl, h3⟩
      · right; rw [h1]; exact ⟨rfl, g, mem_members hg', hn⟩

theorem maxLabelOf_mem (ls : List Int) (h : ls ≠ []) : AbsObj.maxLabelOf ls ∈ ls := by
  cases ls with
  | nil => exact absurd rfl h
  | cons a ls =>
    simp only [AbsObj.maxLabelOf]
    clear h
    induction ls generalizing a with
    | nil => simp
    | cons b ls ih =>
      rw [List.foldl_cons]
      have := ih (max a b)
      rcases List.mem_cons.mp this with h | h
      · rcases max_choice a b with hm | hm <;> rw [h, hm] <;> simp
      · simp [h]

/-- What `get_events` does after any history: exceptions exactly in the two documented cases; otherwise the only
undefined behaviour possible is reading the time of flight of a hit that never got one. -/
theorem getEvents_cases {solve : List GaussRow → F64 × F64} {o : AbsObj} (hc : Consistent o) (data : List Hit) :
    (o.labels.length ≠ data.length ∧ ∃ m, o.getEvents solve data = .throws m) ∨
    (o.labels.length = data.length ∧ data ≠ [] ∧ o.method ≠ "centroid" ∧ o.method ≠ "fast_gaussian" ∧
      ∃ m, o.getEvents solve data = .throws m) ∨
    (o.labels.length = data.length ∧ data = [] ∧ o.getEvents solve data = .ok []) ∨
    (o.labels.length = data.length ∧ data ≠ [] ∧ (o.method = "centroid" ∨ o.method = "fast_gaussian") ∧
      ((∃ r, o.getEvents solve data = .ok r) ∨
       (o.getEvents solve data = .ub .indeterminate ∧ ∃ h ∈ data, h.tof = none))) := by
  unfold AbsObj.getEvents
  by_cases hlen : o.labels.length = data.length
  · rw [if_neg (by simpa using hlen)]
    right
    by_cases hnil : o.labels = []
    · rw [if_pos hnil]
      right; left
      have : data = [] := List.eq_nil_of_length_eq_zero (by rw [← hlen, hnil]; rfl)
      exact ⟨hlen, this, rfl⟩
    · rw [if_neg hnil]
      have hd : data ≠ [] := by
        intro e
        rw [e] at hlen
        exact hnil (List.eq_nil_of_length_eq_zero hlen)
      cases ha : AbsObj.algorithm solve o.method with
      | none =>
        left
        unfold AbsObj.algorithm at ha
        split_ifs at ha with h1 h2
        exact ⟨hlen, hd, h1, h2, _, rfl⟩
      | some alg =>
        right; right
        refine ⟨hlen, hd, ?_, ?_⟩
        · unfold AbsObj.algorithm at ha
          split_ifs at ha with h1 h2
          · left; exact h1
          · right; exact h2
        · apply eventLoop_ub alg data hc hnil hlen (algorithm_ub ha)
          have h1 := hc.labels _ (maxLabelOf_mem _ hnil)
          omega
  · left
    rw [if_pos hlen]
    exact ⟨hlen, _, rfl⟩

theorem new_consistent (p : AbsParams) : Consistent (AbsObj.new p) :=
  ⟨by simp [AbsObj.new], by simp [AbsObj.new]⟩

/-- C30: after any sequence of calls, `get_events(data)`
* throws if the number of labels differs from the number of hits,
* throws if there are hits, the numbers agree and the method is unknown,
* returns no events for no hits when the numbers agree,
* and in no other case throws. -/
theorem c30_throws_iff (solve : List GaussRow → F64 × F64) (p : AbsParams) (cs : List AbsObj.Call) (o : AbsObj)
    (h : (AbsObj.new p).calls solve cs = .ok o) (data : List Hit) :
    ((∃ m, o.getEvents solve data = .throws m) ↔ o.labels.length ≠ data.length ∨
      (data ≠ [] ∧ o.method ≠ "centroid" ∧ o.method ≠ "fast_gaussian")) ∧
    (o.labels.length = 0 → o.getEvents solve [] = .ok []) := by
  have hc := calls_consistent (new_consistent p) h
  constructor
  · rcases getEvents_cases (solve := solve) hc data with ⟨h1, m, h2⟩ | ⟨h1, h2, h3, h4, m, h5⟩ | ⟨h1, h2, h3⟩ |
      ⟨h1, h2, h3, h4⟩
    · exact ⟨fun _ => Or.inl h1, fun _ => ⟨m, h2⟩⟩
    · exact ⟨fun _ => Or.inr ⟨h2, h3, h4⟩, fun _ => ⟨m, h5⟩⟩
    · constructor
      · rintro ⟨m, hm⟩; rw [h3] at hm; simp at hm
      · rintro (h | h)
        · exact absurd h1 h
        · exact absurd h2 h.1
    · constructor
      · rintro ⟨m, hm⟩
        rcases h4 with ⟨r, hr⟩ | ⟨hr, _⟩ <;> rw [hr] at hm <;> simp at hm
      · rintro (h | h)
        · exact absurd h1 h
        · rcases h3 with h3 | h3
          · exact absurd h3 h.2.1
          · exact absurd h3 h.2.2
  · intro h0
    rcases getEvents_cases (solve := solve) hc [] with ⟨h1, m, h2⟩ | ⟨h1, h2, -⟩ | ⟨h1, h2, h3⟩ | ⟨h1, h2, -⟩
    · simp [h0] at h1
    · exact absurd rfl h2
    · exact h3
    · exact absurd rfl h2

/-- C30: no sequence of calls reads or writes out of bounds. -/
theorem c30_in_bounds (solve : List GaussRow → F64 × F64) (p : AbsParams) (cs : List AbsObj.Call) :
    (AbsObj.new p).calls solve cs ≠ .ub .oobRead ∧ (AbsObj.new p).calls solve cs ≠ .ub .oobWrite := by
  have key : ∀ (cs : List AbsObj.Call) (o : AbsObj), Consistent o →
      o.calls solve cs ≠ .ub .oobRead ∧ o.calls solve cs ≠ .ub .oobWrite := by
    intro cs
    induction cs with
    | nil => intro o _; simp [AbsObj.calls]
    | cons c cs ih =>
      intro o hc
      simp only [AbsObj.calls, bind, Res.bind]
      cases hcall : o.call solve c with
      | ok o1 =>
        simp only
        refine ih o1 (calls_consistent (solve := solve) (cs := [c]) hc ?_)
        simp [AbsObj.calls, bind, Res.bind, hcall]
      | throws e => simp
      | ub u =>
        cases c with
        | fit data =>
          rcases fit_ok o data with ⟨o', h1⟩ | ⟨h1, _⟩
          · simp only [AbsObj.call] at hcall; rw [h1] at hcall; simp at hcall
          · simp only [AbsObj.call] at hcall; rw [h1] at hcall
            simp only [Res.ub.injEq] at hcall
            subst hcall
            simp
        | reset => simp [AbsObj.call] at hcall
        | setMethod m => simp [AbsObj.call] at hcall
        | getEvents data =>
          simp only [AbsObj.call] at hcall
          rcases getEvents_cases (solve := solve) hc data with ⟨h1, m, h2⟩ | ⟨h1, h2, h3, h4, m, h5⟩ | ⟨h1, h2, h3⟩ |
            ⟨h1, h2, h3, h4⟩
          · rw [h2] at hcall; simp at hcall
          · rw [h5] at hcall; simp at hcall
          · rw [h3] at hcall; simp at hcall
          · rcases h4 with ⟨r, hr⟩ | ⟨hr, _⟩
            · rw [hr] at hcall; simp at hcall
            · rw [hr] at hcall
              simp only [Res.ub.injEq] at hcall
              subst hcall
              simp
  exact key cs _ (new_consistent p)

end Verif.Props
