import Verif.Props.AnyFile

/-!
# C94 (continued): when a run of the program is undefined, exactly

The conditions are on the bytes of the file alone.
-/

namespace Verif.Props

open Verif Verif.Spec

/-! ### Dated and undated hits -/

theorem misdated_or (w tdc gdc : U64) (chip : Int) (hg : gdc.toNat < 2 ^ 48) :
    (Misdated (hitGdc w tdc gdc chip) ↔ Undatable gdc.toNat w) ∧
    (¬ Misdated (hitGdc w tdc gdc chip) → (hitGdc w tdc gdc chip).spidertime.toNat < 2 ^ 48) := by
  unfold Misdated Undatable
  rw [hitGdc_spidertime]
  have hr := rawSpider_lt w
  have hc : clock30 w = (rawSpider w).toNat := by
    rw [rawSpider_toNat]; unfold clock30 field; omega
  have he := extendSpider_toNat (rawSpider w) gdc hr
  rw [hc, fixSpider_eq]
  generalize (rawSpider w).toNat = r at *
  generalize hE : extendSpider (rawSpider w) gdc = E at *
  have hsub : (E - gdc).toNat = (2 ^ 64 - gdc.toNat + E.toNat) % 2 ^ 64 := BitVec.toNat_sub ..
  have hElt := E.isLt
  rw [hsub]
  simp only [Nat.reducePow] at *
  by_cases hlt : r < gdc.toNat % 1073741824
  · rw [if_pos hlt] at he
    split_ifs with hd
    · rw [BitVec.toNat_sub]; bits_to_nat; omega
    · omega
  · rw [if_neg hlt] at he
    split_ifs with hd
    · rw [BitVec.toNat_sub]; bits_to_nat; omega
    · omega

/-- C94: a hit decoded with a 48-bit global time is misdated exactly when its packet cannot be dated, and exactly when its arrival
time is not the one C04 asks for. -/
theorem c94_misdated_iff (w tdc gdc : U64) (chip : Int) (hg : gdc.toNat < 2 ^ 48) :
    (Misdated (hitGdc w tdc gdc chip) ↔ Undatable gdc.toNat w) ∧
    (Misdated (hitGdc w tdc gdc chip) ↔ ¬ IsArrival (clock30 w) gdc.toNat (hitGdc w tdc gdc chip).spidertime.toNat) := by
  refine ⟨(misdated_or w tdc gdc chip hg).1, ?_⟩
  rw [(misdated_or w tdc gdc chip hg).1, c04_arrival_iff w tdc gdc chip hg]
  unfold Undatable
  tauto

def GoodTimes (t : Times) : Prop := t.gdc < 2 ^ 48 ∧ t.low < 2 ^ 32

theorem nextG_good (w : U64) (t : Times) (h : GoodTimes t) : GoodTimes (nextG w t) := by
  unfold nextG
  have h1 : field w 16 32 < 2 ^ 32 := by unfold field; omega
  have h2 : field w 16 16 < 2 ^ 16 := by unfold field; omega
  unfold GoodTimes at *
  split_ifs
  · exact h
  · exact ⟨h.1, h1⟩
  · refine ⟨?_, h.2⟩
    show field w 16 16 * 2 ^ 32 + t.low < 2 ^ 48
    omega
  · exact h
  · exact h

theorem timesG_good (t : Times) (h : GoodTimes t) (ws : List U64) : GoodTimes (timesG t ws) := by
  unfold timesG
  induction ws generalizing t with
  | nil => exact h
  | cons w ws ih => exact ih _ (nextG_good w t h)

theorem timesT_good (t : Times) (h : GoodTimes t) (ws : List U64) : GoodTimes (timesT t ws) := by
  unfold timesT
  induction ws generalizing t with
  | nil => exact h
  | cons w ws ih =>
    refine ih _ ?_
    show GoodTimes (nextT w t)
    unfold nextT
    split_ifs
    · exact h
    · exact h

/-- What a hit of a file is decoded from. -/
theorem chunkHits_decoded (m : Mode) (t : Times) (ht : GoodTimes t) (cs : List Chunk) (hs : List Hit) (hm : hs ∈ chunkHits m t cs)
    (h : Hit) (hh : h ∈ hs) :
    ∃ chip : Int, ∃ w tdc gdc : U64, gdc.toNat < 2 ^ 48 ∧
      ((m = .gdc ∧ h = hitGdc w tdc gdc chip) ∨ (m = .tdc ∧ h = hitTdc w tdc chip)) := by
  induction cs generalizing t with
  | nil => simp [chunkHits] at hm
  | cons k ks ih =>
    cases m with
    | gdc =>
      rw [chunkHits] at hm
      rcases List.mem_cons.mp hm with rfl | hm
      · simp only [hitsG, List.mem_map] at hh
        obtain ⟨i, -, rfl⟩ := hh
        have := (timesG_good t ht (k.packets.take i)).1
        exact ⟨_, _, _, _, by rw [BitVec.toNat_ofNat]; exact lt_of_le_of_lt (Nat.mod_le _ _) this, .inl ⟨rfl, rfl⟩⟩
      · exact ih _ (timesG_good t ht k.packets) hm
    | tdc =>
      rw [chunkHits] at hm
      rcases List.mem_cons.mp hm with rfl | hm
      · simp only [hitsT, List.mem_map] at hh
        obtain ⟨i, -, rfl⟩ := hh
        exact ⟨_, _, _, 0, by decide, .inr ⟨rfl, rfl⟩⟩
      · exact ih _ (timesT_good t ht k.packets) hm

theorem goodTimes_zero : GoodTimes ⟨0, 0, 0⟩ := by unfold GoodTimes; decide

/-- Every hit of a file is dated well below the bound, or misdated. -/
theorem chunkHits_dichotomy (m : Mode) (t : Times) (ht : GoodTimes t) (cs : List Chunk) (hs : List Hit) (hm : hs ∈ chunkHits m t cs)
    (h : Hit) (hh : h ∈ hs) : h.spidertime.toNat < 2 ^ 48 ∨ Misdated h := by
  obtain ⟨chip, w, tdc, gdc, hg, ⟨-, rfl⟩ | ⟨rfl, rfl⟩⟩ := chunkHits_decoded m t ht cs hs hm h hh
  · by_cases hM : Misdated (hitGdc w tdc gdc chip)
    · exact .inr hM
    · exact .inl ((misdated_or w tdc gdc chip hg).2 hM)
  · left
    have := (hit_ranges .tdc _ chip w tdc gdc (.inr ⟨rfl, rfl⟩)).2.2.2.2.2 rfl
    omega

/-! ### One batch -/

theorem eventsOf_misdated (x : CliCtx) (hr : x.params.range ≤ 2 ^ 62) (hs : List Hit)
    (hd : ∀ h ∈ hs, h.spidertime.toNat < 2 ^ 48 ∨ Misdated h) (hl : ∃ h ∈ hs, Misdated h) :
    eventsOf x hs = .ub .floatToInt := by
  unfold eventsOf
  rw [fit_late (AbsObj.new x.params) hr hs (fun h hh => (hd h hh).imp_left fun h1 => by omega) hl]
  rfl

theorem centroidLoop_no_tof (sr : F64) (a : CentroidAcc) (hs : List Hit) (hn : ∃ h ∈ hs, h.tof = none) :
    centroidLoop true sr a hs = .ub .indeterminate := by
  induction hs generalizing a with
  | nil => simp at hn
  | cons h hs ih =>
    simp only [centroidLoop, bind, Res.bind]
    cases hs1 : centroidStep true sr a h with
    | ub u =>
      unfold centroidStep at hs1
      cases ht : h.tof with
      | none => rw [ht] at hs1; simp only at hs1; rw [← hs1]
      | some t => rw [ht] at hs1; simp at hs1
    | throws m =>
      unfold centroidStep at hs1
      cases ht : h.tof with
      | none => rw [ht] at hs1; simp at hs1
      | some t => rw [ht] at hs1; simp at hs1
    | ok a' =>
      simp only
      apply ih
      obtain ⟨g, hg, hgn⟩ := hn
      rcases List.mem_cons.mp hg with rfl | hg
      · unfold centroidStep at hs1
        rw [hgn] at hs1
        simp at hs1
      · exact ⟨g, hg, hgn⟩

theorem centroidFit_no_tof (sr : F64) (hs : List Hit) (hn : ∃ h ∈ hs, h.tof = none) :
    centroidFit true sr hs = .ub .indeterminate := by
  unfold centroidFit
  obtain ⟨g, hg, hgn⟩ := hn
  rw [if_neg (by have := List.length_pos_of_mem hg; omega), centroidLoop_no_tof _ _ _ ⟨g, hg, hgn⟩]
  rfl

/-- An event computed from a cluster with a hit that has no time of flight. -/
theorem eventLoop_no_tof {o : AbsObj} {data : List Hit} (hc : Consistent o) (hne : o.labels ≠ [])
    (hlen : o.labels.length = data.length) (fuel l k : Nat) (hlk : l ≤ k) (hk : k < l + fuel) (hidx : l + fuel ≤ o.indices.length)
    (hsize : o.params.minSize ≤ (members data o.labels k).length) (hn : ∃ h ∈ members data o.labels k, h.tof = none) :
    o.eventLoop (centroidFit true (F64.ofRat 1)) data fuel l = .ub .indeterminate := by
  induction fuel generalizing l with
  | zero => omega
  | succ fuel ih =>
    rw [AbsObj.eventLoop, hc.indices hne l (by omega)]
    have hg := gather_positions [] data o.labels l hlen.symm
    rw [List.nil_append, List.length_nil] at hg
    simp only [bind, Res.bind, hg]
    by_cases he : l = k
    · subst he
      rw [if_neg (by omega), centroidFit_no_tof _ _ hn]
    · have hrec := ih (l + 1) (by omega) (by omega) (by omega)
      rw [hrec]
      split_ifs
      · rfl
      · rcases centroidFit_ub true (F64.ofRat 1) (members data o.labels l) with ⟨r, h1⟩ | ⟨h1, -⟩ <;> rw [h1]

theorem eventsOf_no_tof (x : CliCtx) (hmin : x.params.minSize ≤ 1) (hs : List Hit) (hn : ∃ h ∈ hs, h.tof = none) :
    ∃ u, eventsOf x hs = .ub u := by
  unfold eventsOf
  simp only [bind]
  cases hf : (AbsObj.new x.params).fit hs with
  | ub u => exact ⟨u, rfl⟩
  | throws m =>
    exfalso
    have := eventsOf_no_throw x hs m
    unfold eventsOf at this
    rw [hf] at this
    exact this rfl
  | ok o' =>
    simp only [Res.bind]
    have hlen := (c24_labels _ o' hs hf).1
    have hc := fit_consistent hf
    have hpm := (fit_inv hf).choose_spec.choose_spec.choose_spec.2
    obtain ⟨g, hg, hgn⟩ := hn
    have hnil : o'.labels ≠ [] := by
      intro h0
      rw [h0, List.length_nil] at hlen
      have := List.length_pos_of_mem hg
      omega
    unfold AbsObj.getEvents
    rw [if_neg (by simpa using hlen), if_neg hnil, hpm.2.1]
    have ha : AbsObj.algorithm x.solve (AbsObj.new x.params).method = some (centroidFit true (F64.ofRat 1)) := by
      unfold AbsObj.algorithm AbsObj.new; rw [if_pos rfl]
    rw [ha]
    simp only
    obtain ⟨i, hi, hge⟩ := List.getElem_of_mem hg
    have hil : i < o'.labels.length := by omega
    have hl0 := hc.labels _ (List.getElem_mem hil)
    have hmax := maxLabelOf_ge o'.labels _ (List.getElem_mem hil)
    have hmem : g ∈ members hs o'.labels (o'.labels[i].toNat : ℕ) := by
      unfold members
      rw [List.mem_map]
      refine ⟨(g, o'.labels[i]), ?_, rfl⟩
      rw [List.mem_filter]
      refine ⟨?_, by simp [Int.toNat_of_nonneg hl0.1]⟩
      rw [List.mem_iff_getElem]
      exact ⟨i, by rw [List.length_zip]; omega, by rw [List.getElem_zip, hge]⟩
    have h1 := hc.labels _ (maxLabelOf_mem _ hnil)
    refine ⟨_, eventLoop_no_tof hc hnil hlen _ 0 (o'.labels[i].toNat) (Nat.zero_le _) (by omega) (by omega) ?_ ⟨g, hmem, hgn⟩⟩
    rw [hpm.1]
    have := List.length_pos_of_mem hmem
    exact hmin.trans this

/-! ### Positions of the events -/

def withoutTof (h : Hit) : Hit := { h with tof := some 0 }

theorem centroidLoop_withoutTof (sr : F64) (a b : CentroidAcc) (hx : a.x = b.x) (hy : a.y = b.y) (ht : a.tot = b.tot) (hs : List Hit)
    (r : CentroidAcc) (hr : centroidLoop true sr a hs = .ok r) :
    ∃ r', centroidLoop true sr b (hs.map withoutTof) = .ok r' ∧ r'.x = r.x ∧ r'.y = r.y ∧ r'.tot = r.tot := by
  induction hs generalizing a b with
  | nil =>
    simp only [centroidLoop, Res.ok.injEq] at hr
    subst hr
    exact ⟨b, rfl, hx.symm, hy.symm, ht.symm⟩
  | cons h hs ih =>
    simp only [centroidLoop, bind, Res.bind] at hr
    unfold centroidStep at hr
    cases hto : h.tof with
    | none => rw [hto] at hr; simp at hr
    | some t =>
      rw [hto] at hr
      simp only at hr
      simp only [List.map_cons, centroidLoop, bind, Res.bind]
      unfold centroidStep
      simp only [withoutTof]
      exact ih _ _ (by rw [hx]) (by rw [hy]) (by rw [ht]) hr

theorem centroidFit_withoutTof (sr : F64) (hs : List Hit) (e : Neutron) (he : centroidFit true sr hs = .ok e) :
    ∃ e', centroidFit true sr (hs.map withoutTof) = .ok e' ∧ e'.x = e.x ∧ e'.y = e.y := by
  unfold centroidFit at he ⊢
  rw [List.length_map]
  by_cases h0 : hs.length = 0
  · rw [if_pos h0] at he ⊢
    exact ⟨e, he, rfl, rfl⟩
  · rw [if_neg h0] at he ⊢
    simp only [bind] at he ⊢
    cases hl : centroidLoop true sr ⟨F64.ofRat 0, F64.ofRat 0, F64.ofRat 0, F64.ofRat 0⟩ hs with
    | ub u => rw [hl] at he; simp [Res.bind] at he
    | throws m => rw [hl] at he; simp [Res.bind] at he
    | ok r =>
      rw [hl] at he
      obtain ⟨r', h1, h2, h3, h4⟩ := centroidLoop_withoutTof sr _ ⟨F64.ofRat 0, F64.ofRat 0, F64.ofRat 0, F64.ofRat 0⟩ rfl rfl rfl hs r hl
      rw [h1]
      simp only [Res.bind, if_true] at he ⊢
      injection he with he
      exact ⟨_, rfl, by rw [← he, h2, h4], by rw [← he, h3, h4]⟩

theorem totMean_le (f : Hit → ℤ) (M : List Hit) (hM : ∀ h ∈ M, (0 ≤ f h ∧ f h < 1024) ∧ 0 ≤ h.tot) (hpos : 0 < total Hit.tot M) :
    0 ≤ totMean f M ∧ totMean f M ≤ 1024 := by
  have hle : ∀ M' : List Hit, (∀ h ∈ M', (0 ≤ f h ∧ f h < 1024) ∧ 0 ≤ h.tot) →
      0 ≤ total (fun h => f h * h.tot) M' ∧ total (fun h => f h * h.tot) M' ≤ 1024 * total Hit.tot M' := by
    intro M' hd
    induction M' with
    | nil => simp [total]
    | cons h M' ih =>
      have h1 := ih (fun g hg => hd g (by simp [hg]))
      obtain ⟨h2, h3⟩ := hd h (by simp)
      simp only [total_cons]
      have h4 : 0 ≤ f h * h.tot := mul_nonneg h2.1 h3
      have h5 : f h * h.tot ≤ 1024 * h.tot := mul_le_mul_of_nonneg_right (by omega) h3
      rw [mul_add]
      omega
  obtain ⟨h1, h2⟩ := hle M hM
  have hq : (0 : ℚ) < total Hit.tot M := by exact_mod_cast hpos
  unfold totMean
  refine ⟨div_nonneg (by exact_mod_cast h1) hq.le, ?_⟩
  rw [div_le_iff₀ hq]
  exact_mod_cast h2

/-- The position of an event is not negative and at most 1025. -/
theorem centroid_position (M : List Hit) (hlen : M.length ≤ 2 ^ 31)
    (hM : ∀ h ∈ M, (0 ≤ h.x ∧ h.x < 1024) ∧ (0 ≤ h.y ∧ h.y < 1024) ∧ 0 ≤ h.tot ∧ h.tot < 1024) (e : Neutron)
    (he : centroidFit true (F64.ofRat 1) M = .ok e) (hk : AbsObj.keepEvent e = true) :
    ∃ a b : ℚ, e.x = .fin a ∧ e.y = .fin b ∧ (0 ≤ a ∧ a ≤ 1025) ∧ (0 ≤ b ∧ b ≤ 1025) := by
  obtain ⟨e', h1, hx, hy⟩ := centroidFit_withoutTof _ M e he
  have hD : ∀ h ∈ M.map withoutTof, Decoded h := by
    intro h hh
    obtain ⟨g, hg, rfl⟩ := List.mem_map.mp hh
    obtain ⟨g1, g2, g3⟩ := hM g hg
    exact ⟨g1, g2, g3, 0, rfl, by decide⟩
  have hl : (M.map withoutTof).length ≤ 2 ^ 31 := by rw [List.length_map]; exact hlen
  have hk' : AbsObj.keepEvent e' = true := by
    unfold AbsObj.keepEvent at hk ⊢
    simp only [hx, hy]
    exact hk
  rw [← hx, ← hy]
  clear hx hy he hk hM hlen e
  generalize M.map withoutTof = L at *
  by_cases hnil : L = []
  · subst hnil
    unfold centroidFit at h1
    rw [if_pos List.length_nil] at h1
    injection h1 with h1
    rw [← h1, fin_zero]
    exact ⟨_, _, rfl, rfl, by norm_num, by norm_num⟩
  · by_cases h0 : total Hit.tot L = 0
    · obtain ⟨e2, h2, h3⟩ := centroid_zero_tot L hnil hD hl h0
      rw [h1] at h2
      injection h2 with h2
      rw [← h2, hk'] at h3
      simp at h3
    · obtain ⟨e2, h2, h3, h4, h5⟩ := c32_centroid 1 (by norm_num) L hD hl h0
      rw [Int.cast_one, h1] at h2
      injection h2 with h2
      subst h2
      have hpos : 0 < total Hit.tot L := by
        have := (decoded_totals L hD hl).2.2.1
        omega
      obtain ⟨a, ha, ha'⟩ := h3.x
      obtain ⟨b, hb, hb'⟩ := h3.y
      have key : ∀ q v : ℚ, 0 ≤ q → q ≤ 1024 → |v - ((1 : ℤ) : ℚ) * q| ≤ |((1 : ℤ) : ℚ) * q| * (1 / 2 ^ 51) → 0 ≤ v ∧ v ≤ 1025 := by
        intro q v q0 q1 hv
        rw [Int.cast_one, one_mul, abs_of_nonneg q0] at hv
        obtain ⟨v1, v2⟩ := abs_le.mp hv
        norm_num at v1 v2
        constructor <;> linarith
      have mx := totMean_le Hit.x L (fun h hh => ⟨(hD h hh).x, (hD h hh).tot.1⟩) hpos
      have my := totMean_le Hit.y L (fun h hh => ⟨(hD h hh).y, (hD h hh).tot.1⟩) hpos
      exact ⟨a, b, ha, hb, key _ _ mx.1 mx.2 ha', key _ _ my.1 my.2 hb'⟩

theorem events_position (x : CliCtx) (hs : List Hit) (ns : List Neutron) (h : eventsOf x hs = .ok ns) (hlen : hs.length ≤ 2 ^ 31)
    (hM : ∀ h ∈ hs, (0 ≤ h.x ∧ h.x < 1024) ∧ (0 ≤ h.y ∧ h.y < 1024) ∧ 0 ≤ h.tot ∧ h.tot < 1024) :
    ∀ e ∈ ns, ∃ a b : ℚ, e.x = .fin a ∧ e.y = .fin b ∧ (0 ≤ a ∧ a ≤ 1025) ∧ (0 ≤ b ∧ b ≤ 1025) := by
  unfold eventsOf at h
  simp only [bind] at h
  cases hf : (AbsObj.new x.params).fit hs with
  | ub u => rw [hf] at h; simp [Res.bind] at h
  | throws m => rw [hf] at h; simp [Res.bind] at h
  | ok o' =>
    rw [hf] at h
    simp only [Res.bind] at h
    have hlen' := (c24_labels _ o' hs hf).1
    have hc := fit_consistent hf
    have hpm := (fit_inv hf).choose_spec.choose_spec.choose_spec.2
    unfold AbsObj.getEvents at h
    rw [if_neg (by simpa using hlen')] at h
    by_cases hnil : o'.labels = []
    · rw [if_pos hnil] at h
      simp only [Res.ok.injEq] at h
      subst h
      simp
    · rw [if_neg hnil, hpm.2.1] at h
      have ha : AbsObj.algorithm x.solve (AbsObj.new x.params).method = some (centroidFit true (F64.ofRat 1)) := by
        unfold AbsObj.algorithm AbsObj.new; rw [if_pos rfl]
      rw [ha] at h
      intro e hee
      obtain ⟨l, -, -, h1, h2⟩ := eventLoop_mem hc hnil hlen' _ _ ns h e hee
      exact centroid_position _ ((members_sublist _ _ _).length_le.trans hlen) (fun g hg => hM g (mem_members hg)) e h1 h2

theorem toPixel_rational (sr : ℚ) (h0 : 0 ≤ sr) (h1 : sr ≤ 2 ^ 20) (c : ℚ) (hc : 0 ≤ c ∧ c ≤ 1025) :
    ∃ k, toPixel (.fin sr) (.fin c) = .ok k := by
  have hp0 : 0 ≤ c * sr := mul_nonneg hc.1 h0
  have hp1 : c * sr ≤ ((2 ^ 30 + 2 ^ 20 : ℤ) : ℚ) := by
    calc c * sr ≤ 1025 * 2 ^ 20 := mul_le_mul hc.2 h1 h0 (by norm_num)
      _ = ((2 ^ 30 + 2 ^ 20 : ℤ) : ℚ) := by norm_num
  have hr1 : rndQ (c * sr) ≤ ((2 ^ 30 + 2 ^ 20 : ℤ) : ℚ) := by
    have := rndQ_mono hp1
    rwa [rndQ_int (by norm_num)] at this
  have hr0 := rndQ_nonneg hp0
  have hv : F64.ofRat (c * sr) = .fin (rndQ (c * sr)) := by
    apply F64.ofRat_eq_fin
    rw [abs_of_nonneg hr0]
    refine lt_of_le_of_lt hr1 ?_
    calc (((2 ^ 30 + 2 ^ 20 : ℤ)) : ℚ) ≤ 2 ^ (31 : ℤ) := by norm_num
      _ < 2 ^ (1024 : ℤ) := zpow_lt_zpow_right₀ (by norm_num) (by norm_num)
  unfold toPixel
  simp only [F64.mul]
  rw [hv]
  simp only [F64.round, F64.toI32?, truncQ_int]
  rw [if_pos hr0]
  have b0 : 0 ≤ ⌊rndQ (c * sr) + 1 / 2⌋ := Int.floor_nonneg.mpr (by linarith)
  have b1 : ⌊rndQ (c * sr) + 1 / 2⌋ < 2 ^ 30 + 2 ^ 20 + 1 := by
    rw [Int.floor_lt]
    push_cast at hr1 ⊢
    linarith
  rw [if_pos (by omega)]
  exact ⟨_, rfl⟩

/-! ### The outputs of a batch -/

/-- A batch whose hits are all dated and timed. -/
def SoundBatch (x : CliCtx) (b : EventBatch) : Prop :=
  FromPackets x b ∧ ∀ h ∈ b.batch.hits, h.spidertime.toNat < 2 ^ 48 ∧ h.tof ≠ none

theorem FromPackets.ranges {x : CliCtx} {b : EventBatch} (hb : FromPackets x b) :
    b.batch.hits.length ≤ 8191 ∧ ∀ h ∈ b.batch.hits, (0 ≤ h.x ∧ h.x ≤ 515) ∧ (0 ≤ h.y ∧ h.y ≤ 515) ∧ (0 ≤ h.tot ∧ h.tot < 1024) ∧
      (0 ≤ h.toa ∧ h.toa < 16384) ∧ (0 ≤ h.ftoa ∧ h.ftoa < 16) := by
  obtain ⟨⟨chip, ws, c, hl, hh⟩, -⟩ := hb
  rw [hh]
  obtain ⟨h1, h2⟩ := runPackets_hits x.mode chip ws c
  refine ⟨h1.trans hl, ?_⟩
  intro h hm
  obtain ⟨w, tdc, gdc, hd⟩ := h2 h hm
  have := hit_ranges x.mode h chip w tdc gdc hd
  exact ⟨this.1, this.2.1, this.2.2.1, this.2.2.2.1, this.2.2.2.2.1⟩

theorem SoundBatch.regular {x : CliCtx} {b : EventBatch} (hb : SoundBatch x b) : ∀ h ∈ b.batch.hits, RegularHit h := by
  intro h hh
  obtain ⟨h1, h2, h3, h4, h5⟩ := hb.1.ranges.2 h hh
  obtain ⟨h6, h7⟩ := hb.2 h hh
  refine ⟨?_, ?_, ?_, ?_, ?_, h7, h6⟩ <;> rw [abs_of_nonneg (by omega)] <;> omega

theorem SoundBatch.nHits {x : CliCtx} {b : EventBatch} (hb : SoundBatch x b) : ∀ n ∈ b.neutrons, n.nHits < 2 ^ 31 := by
  intro n hn
  have h1 := events_size x _ _ hb.1.2 n hn
  have h2 := hb.1.ranges.1
  omega

theorem appendHits_no_ub (gf : Option GFault) (df : Nat → Option DFault) (hits : List Hit) (hr : ∀ h ∈ hits, RegularHit h) (f : H5)
    (u : UB) : appendHits gf df hits f ≠ .ub u := by
  unfold appendHits
  by_cases he : hits = []
  · rw [if_pos he]; simp
  · rw [if_neg he, hit_values hits hr]
    simp only [Res.bind]
    split <;> simp

theorem appendNeutrons_no_ub (gf : Option GFault) (df : Nat → Option DFault) (ns : List Neutron) (hr : ∀ n ∈ ns, n.nHits < 2 ^ 31)
    (f : H5) (u : UB) : appendNeutrons gf df ns f ≠ .ub u := by
  unfold appendNeutrons
  by_cases he : ns = []
  · rw [if_pos he]; simp
  · rw [if_neg he, neutron_values ns hr]
    simp only [Res.bind]
    split <;> simp

/-- The images are set up: a moderate super resolution, two bin edges or more. -/
def ImagesReady (sr : F64) (es : List F64) (im : Stack) : Prop :=
  ∃ (q : ℚ) (n d : Nat), sr = .fin q ∧ 0 ≤ q ∧ q ≤ 2 ^ 20 ∧ 2 ≤ es.length ∧ dimOf sr = .ok d ∧ 0 < n ∧ Shaped n d im

theorem updateAll_one (sr : F64) (es : List F64) (mode : String) (im : Stack) (b : EventBatch) :
    updateAll sr es mode im [b] = updateImages sr es mode im b := by
  simp only [updateAll, bind]
  cases updateImages sr es mode im b <;> rfl

theorem updateAll_sound {x : CliCtx} {sr : F64} {es : List F64} {im : Stack} (hi : ImagesReady sr es im) (mode : String)
    (bs : List EventBatch) (hb : ∀ b ∈ bs, SoundBatch x b) :
    ∃ im', updateAll sr es mode im bs = .ok im' ∧ ImagesReady sr es im' := by
  obtain ⟨q, n, d, rfl, h0, h1, hl, hd, hn, hs⟩ := hi
  have hne : es ≠ [] := by intro h; rw [h] at hl; simp at hl
  rcases updateAll_cases hs hn _ es hl hd mode bs with ⟨im', h⟩ | ⟨h, g⟩ | ⟨h, e, he, -, -, g⟩
  · refine ⟨im', h, q, n, d, rfl, h0, h1, hl, hd, hn, ?_⟩
    exact addEntries_shaped hs _ es hne _ im' ((updateAll_iff hs hn _ es hl hd mode bs im').mp h).2
  · exact absurd (fun _ b hb' h' hm => ((hb b hb').2 h' hm).2) g
  · exfalso
    unfold entryList at he
    obtain ⟨b, hbm, he⟩ := List.mem_flatMap.mp he
    have hr := (hb b hbm).1.ranges
    by_cases hm : mode = "hit"
    · rw [if_pos hm] at he
      obtain ⟨h', hm', he⟩ := List.mem_filterMap.mp he
      obtain ⟨gx, gy, -⟩ := hr.2 h' hm'
      obtain ⟨t, ht⟩ := Option.ne_none_iff_exists'.mp ((hb b hbm).2 h' hm').2
      rw [(hit_entry h' t ht).2] at he
      injection he with he
      subst he
      obtain ⟨kx, ex⟩ := toPixel_moderate q h0 h1 h'.x (by omega)
      obtain ⟨ky, ey⟩ := toPixel_moderate q h0 h1 h'.y (by omega)
      simp only [ex, ey, reduceCtorEq, or_self] at g
    · rw [if_neg hm] at he
      obtain ⟨ne, hne', rfl⟩ := List.mem_map.mp he
      obtain ⟨a, b', ha, hb', ga, gb⟩ := events_position x _ _ (hb b hbm).1.2 (by omega) (fun h hh => by
        have := hr.2 h hh
        omega) ne hne'
      obtain ⟨kx, ex⟩ := toPixel_rational q h0 h1 a ga
      obtain ⟨ky, ey⟩ := toPixel_rational q h0 h1 b' gb
      simp only [ha, hb', ex, ey, reduceCtorEq, or_self] at g

theorem outputBatch_sound {x : CliCtx} (o : ProgramOptions) (sr : F64) (es : List F64) (fl : BatchFaults) (b : EventBatch)
    (hb : SoundBatch x b) (w : Outputs) (hi : o.needsImages = true → ImagesReady sr es w.images) :
    (∀ u, outputBatch o sr es fl b w ≠ .ub u) ∧
    ∀ w', outputBatch o sr es fl b w = .ok (w', .normal) → o.needsImages = true → ImagesReady sr es w'.images := by
  have hh : ∀ u, (if o.outHits = [] then .ok w.hits else appendHits fl.hitGroup fl.hitColumn b.batch.hits w.hits : Res H5) ≠ .ub u := by
    intro u
    split_ifs
    · simp
    · exact appendHits_no_ub _ _ _ hb.regular _ u
  have he : ∀ u, (if o.outEvents = [] then .ok (w.events, false)
      else appendNeutrons fl.eventGroup fl.eventColumn b.neutrons w.events : Res (H5 × Bool)) ≠ .ub u := by
    intro u
    split_ifs
    · simp
    · exact appendNeutrons_no_ub _ _ _ hb.nHits _ u
  have hm : ∃ im, (if o.needsImages then updateImages sr es (String.ofList o.tofMode) w.images b else .ok w.images : Res Stack) = .ok im ∧
      (o.needsImages = true → ImagesReady sr es im) := by
    by_cases hn : o.needsImages = true
    · rw [if_pos hn]
      obtain ⟨im, h1, h2⟩ := updateAll_sound (hi hn) (String.ofList o.tofMode) [b] (by simpa using hb)
      rw [updateAll_one] at h1
      exact ⟨im, h1, fun _ => h2⟩
    · rw [if_neg hn]
      exact ⟨_, rfl, fun h => absurd h hn⟩
  obtain ⟨im, hm1, hm2⟩ := hm
  unfold outputBatch
  rw [hm1]
  constructor
  · intro u h
    split at h
    · rename_i hu; exact hh _ hu
    · simp at h
    · split at h
      · rename_i hu; exact he _ hu
      · simp at h
      · simp at h
      · simp at h
  · intro w' h hn
    split at h
    · simp at h
    · simp at h
    · split at h
      · simp at h
      · simp at h
      · simp at h
      · simp only [Res.ok.injEq, Prod.mk.injEq, and_true] at h
        rw [← h]
        exact hm2 hn

theorem outputBatches_sound {x : CliCtx} (o : ProgramOptions) (sr : F64) (es : List F64) (fl : Nat → BatchFaults) (k : Nat)
    (bs : List EventBatch) (hb : ∀ b ∈ bs, SoundBatch x b) (w : Outputs)
    (hi : o.needsImages = true → ImagesReady sr es w.images) :
    (∀ u, outputBatches o sr es fl k bs w ≠ .ub u) ∧
    ∀ w', outputBatches o sr es fl k bs w = .ok (w', .normal) → o.needsImages = true → ImagesReady sr es w'.images := by
  induction bs generalizing k w with
  | nil =>
    refine ⟨by simp [outputBatches], ?_⟩
    intro w' h hn
    simp only [outputBatches, Res.ok.injEq, Prod.mk.injEq, and_true] at h
    rw [← h]
    exact hi hn
  | cons b bs ih =>
    obtain ⟨h1, h2⟩ := outputBatch_sound o sr es (fl k) b (hb b (by simp)) w hi
    rw [outputBatches]
    split
    · rename_i w1 hw1
      exact ih (k + 1) (fun b' hb' => hb b' (by simp [hb'])) w1 (h2 w1 hw1)
    · rename_i hne
      refine ⟨h1, ?_⟩
      intro w' h
      exact absurd h (hne w')

/-! ### Without failures of the libraries -/

/-- State of the outputs between two batches of a run without failures. -/
structure OutputsReady (o : ProgramOptions) (sr : F64) (es : List F64) (w : Outputs) : Prop where
  hits : GroupReady w.hits ['h', 'i', 't', 's'] (hitAttrs.map Prod.fst)
  events : GroupReady w.events ['n', 'e', 'u', 't', 'r', 'o', 'n', 's'] (neutronAttrs.map Prod.fst)
  images : o.needsImages = true → ImagesReady sr es w.images

theorem outputBatch_clean {x : CliCtx} (o : ProgramOptions) (sr : F64) (es : List F64) (b : EventBatch) (hb : SoundBatch x b)
    (w : Outputs) (hw : OutputsReady o sr es w) :
    ∃ w', outputBatch o sr es {} b w = .ok (w', .normal) ∧ OutputsReady o sr es w' := by
  obtain ⟨h, hh1, hh2⟩ : ∃ h, (if o.outHits = [] then .ok w.hits else appendHits none (fun _ => none) b.batch.hits w.hits : Res H5) = .ok h ∧
      GroupReady h ['h', 'i', 't', 's'] (hitAttrs.map Prod.fst) := by
    split_ifs
    · exact ⟨_, rfl, hw.hits⟩
    · obtain ⟨f, h1, h2, -⟩ := appendHits_ok _ hb.regular w.hits hw.hits
      exact ⟨f, h1, h2⟩
  obtain ⟨e, he1, he2⟩ : ∃ e, (if o.outEvents = [] then .ok (w.events, false)
      else appendNeutrons none (fun _ => none) b.neutrons w.events : Res (H5 × Bool)) = .ok (e, false) ∧
      GroupReady e ['n', 'e', 'u', 't', 'r', 'o', 'n', 's'] (neutronAttrs.map Prod.fst) := by
    split_ifs
    · exact ⟨_, rfl, hw.events⟩
    · obtain ⟨f, h1, h2, -⟩ := appendNeutrons_ok _ hb.nHits w.events hw.events
      exact ⟨f, h1, h2⟩
  obtain ⟨im, hm1, hm2⟩ : ∃ im, (if o.needsImages then updateImages sr es (String.ofList o.tofMode) w.images b
      else .ok w.images : Res Stack) = .ok im ∧ (o.needsImages = true → ImagesReady sr es im) := by
    by_cases hn : o.needsImages = true
    · rw [if_pos hn]
      obtain ⟨im, h1, h2⟩ := updateAll_sound (hw.images hn) (String.ofList o.tofMode) [b] (by simpa using hb)
      rw [updateAll_one] at h1
      exact ⟨im, h1, fun _ => h2⟩
    · rw [if_neg hn]
      exact ⟨_, rfl, fun h => absurd h hn⟩
  unfold outputBatch
  simp only [hh1, he1, hm1]
  exact ⟨_, rfl, hh2, he2, hm2⟩

theorem outputBatches_clean_sound {x : CliCtx} (o : ProgramOptions) (sr : F64) (es : List F64) (k : Nat) (bs : List EventBatch)
    (hb : ∀ b ∈ bs, SoundBatch x b) (w : Outputs) (hw : OutputsReady o sr es w) :
    ∃ w', outputBatches o sr es (fun _ => {}) k bs w = .ok (w', .normal) ∧ OutputsReady o sr es w' := by
  induction bs generalizing k w with
  | nil => exact ⟨w, rfl, hw⟩
  | cons b bs ih =>
    obtain ⟨w1, h1, h2⟩ := outputBatch_clean o sr es b (hb b (by simp)) w hw
    rw [outputBatches, h1]
    exact ih (k + 1) (fun b' hb' => hb b' (by simp [hb'])) w1 h2

/-- The outputs that look at the time of flight of every hit. -/
def ReadsTof (o : ProgramOptions) : Prop := o.outHits ≠ [] ∨ (o.needsImages = true ∧ o.tofMode = "hit".toList)

theorem outputBatch_no_tof {x : CliCtx} (o : ProgramOptions) (ho : ReadsTof o) (sr : F64) (es : List F64) (b : EventBatch)
    (hb : FromPackets x b) (hn : ∃ h ∈ b.batch.hits, h.tof = none) (w : Outputs) (hw : OutputsReady o sr es w) :
    outputBatch o sr es {} b w = .ub .indeterminate := by
  unfold outputBatch
  by_cases hh : o.outHits = []
  · rw [if_pos hh]
    simp only
    rcases ho with ho | ⟨hi, hm⟩
    · exact absurd hh ho
    · have hsz : ∀ n ∈ b.neutrons, n.nHits < 2 ^ 31 := by
        intro n hn'
        have h1 := events_size x _ _ hb.2 n hn'
        have h2 := hb.ranges.1
        omega
      obtain ⟨e, he1⟩ : ∃ e, (if o.outEvents = [] then .ok (w.events, false)
          else appendNeutrons none (fun _ => none) b.neutrons w.events : Res (H5 × Bool)) = .ok (e, false) := by
        split_ifs
        · exact ⟨_, rfl⟩
        · obtain ⟨f, h1, -⟩ := appendNeutrons_ok _ hsz w.events hw.events
          exact ⟨f, h1⟩
      rw [he1, if_pos hi, hm]
      obtain ⟨q, n, d, -, -, -, hl, hd, hn0, hs⟩ := hw.images hi
      have hne : w.images ≠ [] := by
        intro h0
        have := hs.len
        rw [h0] at this
        simp at this
        omega
      have hu : updateImages sr es "hit" w.images b = .ub .indeterminate := by
        unfold updateImages
        rw [if_neg (by rintro (h | h); exacts [hne h, by omega]), hd]
        simp only [bind, Res.bind]
        rcases entriesOf_eq "hit" b with ⟨h1, -⟩ | ⟨-, h1⟩
        · obtain ⟨g, hg, hgn⟩ := hn
          exact absurd hgn (h1 rfl b (by simp) g hg)
        · rw [h1]
      show (match updateImages sr es (String.ofList "hit".toList) w.images b with
        | .ub u => _ | .throws m => _ | .ok im => _) = _
      rw [show String.ofList "hit".toList = "hit" from rfl, hu]
  · rw [if_neg hh]
    simp only
    rw [c42_indeterminate _ hn]

theorem outputBatches_no_tof {x : CliCtx} (o : ProgramOptions) (ho : ReadsTof o) (sr : F64) (es : List F64) (k : Nat)
    (bs : List EventBatch) (hb : ∀ b ∈ bs, FromPackets x b ∧ ∀ h ∈ b.batch.hits, h.spidertime.toNat < 2 ^ 48)
    (hn : ∃ b ∈ bs, ∃ h ∈ b.batch.hits, h.tof = none) (w : Outputs) (hw : OutputsReady o sr es w) :
    outputBatches o sr es (fun _ => {}) k bs w = .ub .indeterminate := by
  induction bs generalizing k w with
  | nil => simp at hn
  | cons b bs ih =>
    rw [outputBatches]
    by_cases h0 : ∃ h ∈ b.batch.hits, h.tof = none
    · rw [outputBatch_no_tof o ho sr es b (hb b (by simp)).1 h0 w hw]
    · have hs : SoundBatch x b := ⟨(hb b (by simp)).1, fun h hh => ⟨(hb b (by simp)).2 h hh, fun ht => h0 ⟨h, hh, ht⟩⟩⟩
      obtain ⟨w1, h1, h2⟩ := outputBatch_clean o sr es b hs w hw
      rw [h1]
      obtain ⟨b', hb', hb''⟩ := hn
      rcases List.mem_cons.mp hb' with rfl | hb'
      · exact absurd hb'' h0
      · exact ih (k + 1) (fun b' hb' => hb b' (by simp [hb'])) ⟨b', hb', hb''⟩ w1 h2

/-! ### The loop -/

theorem evAll_sound (x : CliCtx) (L : List (List Hit))
    (h : ∀ hs ∈ L, ∀ h ∈ hs, h.spidertime.toNat < 2 ^ 48 ∧ h.tof ≠ none) : ∃ v, evAll x L = .ok v := by
  induction L with
  | nil => exact ⟨[], rfl⟩
  | cons a L ih =>
    obtain ⟨es, he⟩ := eventsOf_returns x a (h a (by simp))
    obtain ⟨v, hv⟩ := ih fun hs hh => h hs (by simp [hh])
    exact ⟨(a, es) :: v, by simp [evAll, bind, Res.bind, he, hv]⟩

theorem anyChunk_ok {x : CliCtx} {buf : Bytes} (hno : ¬ Overrun buf) {c : Clock} {e : List EventBatch × Clock}
    (h : chunkEvents x buf c = .ok e) :
    e.2 = clockAfter x.mode c (announced (wordsOf buf)) ∧
    (e.1.map fun b => b.batch.hits) = perChunk x.mode c (announced (wordsOf buf)) ∧ ∀ b ∈ e.1, FromPackets x b := by
  have hch := chunk_any x buf hno c
  rw [h] at hch
  cases hev : evAll x (perChunk x.mode c (announced (wordsOf buf))) with
  | ub u => rw [hev] at hch; simp [chunkOutput, Res.bind] at hch
  | throws m => rw [hev] at hch; simp [chunkOutput, Res.bind] at hch
  | ok v =>
    rw [hev] at hch
    simp only [chunkOutput, Res.bind, Res.ok.injEq, Prod.mk.injEq] at hch
    refine ⟨hch.2, ?_, chunkEvents_batches x buf c e h⟩
    rw [← (evAll_fst x _ v hev).1, ← hch.1, outputOf, List.map_map]
    rfl

theorem anyChunk_sound (x : CliCtx) (buf : Bytes) (hno : ¬ Overrun buf) (c : Clock)
    (hs : ∀ hs ∈ perChunk x.mode c (announced (wordsOf buf)), ∀ h ∈ hs, h.spidertime.toNat < 2 ^ 48 ∧ h.tof ≠ none) :
    ∃ e, chunkEvents x buf c = .ok e ∧ e.2 = clockAfter x.mode c (announced (wordsOf buf)) ∧ ∀ b ∈ e.1, SoundBatch x b := by
  obtain ⟨v, hv⟩ := evAll_sound x _ hs
  have hch := chunk_any x buf hno c
  rw [hv] at hch
  cases hce : chunkEvents x buf c with
  | ub u => rw [hce] at hch; simp [chunkOutput, Res.bind] at hch
  | throws m => rw [hce] at hch; simp [chunkOutput, Res.bind] at hch
  | ok e =>
    obtain ⟨h1, h2, h3⟩ := anyChunk_ok hno hce
    refine ⟨e, rfl, h1, ?_⟩
    intro b hb
    exact ⟨h3 b hb, hs _ (by rw [← h2]; exact List.mem_map.mpr ⟨b, hb, rfl⟩)⟩

theorem mainLoop_step (o : ProgramOptions) (x : CliCtx) (sr : F64) (es : List F64) (fl : Nat → BatchFaults) (hn0 : 0 < o.chunkSize)
    (fuel k : Nat) (file : Bytes) (p : Nat) (hp : p < file.length) (c : Clock) (w : Outputs) :
    mainLoop o x sr es fl (fuel + 1) k ⟨file, p⟩ c w =
      match chunkEvents x ((file.drop p).take o.chunkSize) c with
      | .ub u => .ub u
      | .throws _ => mainLoop o x sr es fl fuel k ⟨file, min (p + o.chunkSize) file.length⟩ c w
      | .ok e => match outputBatches o sr es fl k e.1 w with
        | .ub u => .ub u
        | .throws _ => mainLoop o x sr es fl fuel (k + e.1.length) ⟨file, min (p + o.chunkSize) file.length⟩ e.2 w
        | .ok (w', .terminate) => .ok (.terminated w')
        | .ok (w', .normal) => mainLoop o x sr es fl fuel (k + e.1.length) ⟨file, min (p + o.chunkSize) file.length⟩ e.2 w' := by
  rw [mainLoop, if_neg (by simp only [Reader.isEOF, decide_eq_true_eq]; omega)]
  obtain ⟨r1, r2⟩ := readChunk_any file p o.chunkSize hp
  have hne' : (file.drop p).take o.chunkSize ≠ [] := by
    intro h0
    have := congrArg List.length h0
    rw [List.length_take, List.length_drop, List.length_nil] at this
    omega
  simp only
  rw [r1, r2, if_neg hne']
  rfl

theorem rest_pieces (n : Nat) (hn0 : 0 < n) (file : Bytes) (p : Nat) (hp : p < file.length) :
    pieces n (file.drop p) = (file.drop p).take n :: pieces n (file.drop (min (p + n) file.length)) ∧
    fileChunks n (file.drop p) = announced (wordsOf ((file.drop p).take n)) ++
      fileChunks n (file.drop (min (p + n) file.length)) := by
  have hne : file.drop p ≠ [] := by
    intro h0
    have := congrArg List.length h0
    rw [List.length_drop, List.length_nil] at this
    omega
  have hpc := pieces_cons n hn0 _ hne
  rw [drop_min]
  refine ⟨hpc, ?_⟩
  unfold fileChunks
  rw [hpc, List.flatMap_cons]

theorem mainLoop_end (o : ProgramOptions) (x : CliCtx) (sr : F64) (es : List F64) (fl : Nat → BatchFaults) (fuel k : Nat)
    (file : Bytes) (p : Nat) (hp : file.length ≤ p) (c : Clock) (w : Outputs) :
    mainLoop o x sr es fl (fuel + 1) k ⟨file, p⟩ c w = .ok (.finished w) := by
  rw [mainLoop, if_pos (by simp only [Reader.isEOF, decide_eq_true_eq]; omega)]

/-- No undefined behaviour, whatever fails in the libraries. -/
theorem mainLoop_safe (o : ProgramOptions) (x : CliCtx) (sr : F64) (es : List F64) (fl : Nat → BatchFaults) (hn0 : 0 < o.chunkSize)
    (fuel k : Nat) (file : Bytes) (p : Nat) (c : Clock) (w : Outputs)
    (hno : ∀ b ∈ pieces o.chunkSize (file.drop p), ¬ Overrun b)
    (hs : ∀ hs ∈ perChunk x.mode c (fileChunks o.chunkSize (file.drop p)), ∀ h ∈ hs, h.spidertime.toNat < 2 ^ 48 ∧ h.tof ≠ none)
    (hi : o.needsImages = true → ImagesReady sr es w.images) (u : UB) :
    mainLoop o x sr es fl fuel k ⟨file, p⟩ c w ≠ .ub u := by
  induction fuel generalizing k p c w with
  | zero => simp [mainLoop]
  | succ fuel ih =>
    by_cases hp : file.length ≤ p
    · rw [mainLoop_end _ _ _ _ _ _ _ _ _ hp]; simp
    · obtain ⟨r1, r2⟩ := rest_pieces o.chunkSize hn0 file p (by omega)
      rw [r1] at hno
      rw [r2, (perChunk_append _ _ _ _).1] at hs
      obtain ⟨e, h1, h2, h3⟩ := anyChunk_sound x _ (hno _ (by simp)) c (fun l hl => hs l (List.mem_append_left _ hl))
      obtain ⟨s1, s2⟩ := outputBatches_sound o sr es fl k e.1 h3 w hi
      rw [mainLoop_step _ _ _ _ _ hn0 _ _ _ _ (by omega), h1]
      simp only
      have hno' : ∀ b ∈ pieces o.chunkSize (file.drop (min (p + o.chunkSize) file.length)), ¬ Overrun b :=
        fun b hb => hno b (List.mem_cons_of_mem _ hb)
      cases ho : outputBatches o sr es fl k e.1 w with
      | ub u => exact absurd ho (s1 u)
      | throws m => exact absurd ho (outputBatches_no_throw _ _ _ _ _ _ _ _)
      | ok r =>
        obtain ⟨w', l⟩ := r
        cases l with
        | terminate => simp
        | normal =>
          simp only
          refine ih _ _ e.2 w' hno' ?_ (s2 w' ho)
          rw [h2]
          exact fun l hl => hs l (List.mem_append_right _ hl)

/-- Without failures the loop ends normally. -/
theorem mainLoop_ends (o : ProgramOptions) (x : CliCtx) (sr : F64) (es : List F64) (hn0 : 0 < o.chunkSize)
    (fuel k : Nat) (file : Bytes) (p : Nat) (c : Clock) (w : Outputs)
    (hno : ∀ b ∈ pieces o.chunkSize (file.drop p), ¬ Overrun b)
    (hs : ∀ hs ∈ perChunk x.mode c (fileChunks o.chunkSize (file.drop p)), ∀ h ∈ hs, h.spidertime.toNat < 2 ^ 48 ∧ h.tof ≠ none)
    (hw : OutputsReady o sr es w) (hfuel : file.length - p < fuel) :
    ∃ w', mainLoop o x sr es (fun _ => {}) fuel k ⟨file, p⟩ c w = .ok (.finished w') := by
  induction fuel generalizing k p c w with
  | zero => omega
  | succ fuel ih =>
    by_cases hp : file.length ≤ p
    · exact ⟨w, mainLoop_end _ _ _ _ _ _ _ _ _ hp _ _⟩
    · obtain ⟨r1, r2⟩ := rest_pieces o.chunkSize hn0 file p (by omega)
      rw [r1] at hno
      rw [r2, (perChunk_append _ _ _ _).1] at hs
      obtain ⟨e, h1, h2, h3⟩ := anyChunk_sound x _ (hno _ (by simp)) c (fun l hl => hs l (List.mem_append_left _ hl))
      obtain ⟨w', s1, s2⟩ := outputBatches_clean_sound o sr es k e.1 h3 w hw
      rw [mainLoop_step _ _ _ _ _ hn0 _ _ _ _ (by omega), h1]
      simp only
      rw [s1]
      simp only
      refine ih _ _ e.2 w' (fun b hb => hno b (List.mem_cons_of_mem _ hb)) ?_ s2 (by omega)
      rw [h2]
      exact fun l hl => hs l (List.mem_append_right _ hl)

/-- Without failures the behaviour is undefined if a piece overruns or a hit is misdated or untimed. -/
theorem mainLoop_bad (o : ProgramOptions) (x : CliCtx) (hr : x.params.range ≤ 2 ^ 62) (ho : ReadsTof o ∨ x.params.minSize ≤ 1)
    (sr : F64) (es : List F64) (hn0 : 0 < o.chunkSize) (fuel k : Nat) (file : Bytes) (p : Nat) (c : Clock) (w : Outputs)
    (hd : ∀ hs ∈ perChunk x.mode c (fileChunks o.chunkSize (file.drop p)), ∀ h ∈ hs, h.spidertime.toNat < 2 ^ 48 ∨ Misdated h)
    (hbad : (∃ b ∈ pieces o.chunkSize (file.drop p), Overrun b) ∨
      ∃ hs ∈ perChunk x.mode c (fileChunks o.chunkSize (file.drop p)), ∃ h ∈ hs, Misdated h ∨ h.tof = none)
    (hw : OutputsReady o sr es w) (hfuel : file.length - p < fuel) :
    ∃ u, mainLoop o x sr es (fun _ => {}) fuel k ⟨file, p⟩ c w = .ub u := by
  induction fuel generalizing k p c w with
  | zero => omega
  | succ fuel ih =>
    by_cases hp : file.length ≤ p
    · exfalso
      unfold fileChunks at hbad
      rw [List.drop_of_length_le hp, pieces_nil _ hn0] at hbad
      simp [perChunk] at hbad
    · obtain ⟨r1, r2⟩ := rest_pieces o.chunkSize hn0 file p (by omega)
      rw [r2, (perChunk_append _ _ _ _).1] at hd hbad
      rw [r1] at hbad
      rw [mainLoop_step _ _ _ _ _ hn0 _ _ _ _ (by omega)]
      cases hce : chunkEvents x ((file.drop p).take o.chunkSize) c with
      | ub u => exact ⟨u, rfl⟩
      | throws m => exact absurd hce (chunkEvents_no_throw x _ c m)
      | ok e =>
        simp only
        have hno : ¬ Overrun ((file.drop p).take o.chunkSize) := by
          intro h
          rw [chunk_overrun x _ h c] at hce
          simp at hce
        obtain ⟨h1, h2, h3⟩ := anyChunk_ok hno hce
        have hdated : ∀ b ∈ e.1, FromPackets x b ∧ ∀ h ∈ b.batch.hits, h.spidertime.toNat < 2 ^ 48 := by
          intro b hb
          refine ⟨h3 b hb, ?_⟩
          have hdb : ∀ h ∈ b.batch.hits, h.spidertime.toNat < 2 ^ 48 ∨ Misdated h :=
            hd _ (List.mem_append_left _ (by rw [← h2]; exact List.mem_map.mpr ⟨b, hb, rfl⟩))
          intro h hh
          rcases hdb h hh with hlt | hM
          · exact hlt
          · have := eventsOf_misdated x hr _ hdb ⟨h, hh, hM⟩
            rw [(h3 b hb).2] at this
            simp at this
        by_cases hnt : ∃ b ∈ e.1, ∃ h ∈ b.batch.hits, h.tof = none
        · have hrd : ReadsTof o := by
            rcases ho with ho | ho
            · exact ho
            · exfalso
              obtain ⟨b, hb, hbn⟩ := hnt
              obtain ⟨u, hu⟩ := eventsOf_no_tof x ho _ hbn
              rw [(h3 b hb).2] at hu
              simp at hu
          rw [outputBatches_no_tof o hrd sr es k e.1 hdated hnt w hw]
          exact ⟨_, rfl⟩
        · have hsound : ∀ b ∈ e.1, SoundBatch x b := fun b hb =>
            ⟨h3 b hb, fun h hh => ⟨(hdated b hb).2 h hh, fun ht => hnt ⟨b, hb, h, hh, ht⟩⟩⟩
          obtain ⟨w', s1, s2⟩ := outputBatches_clean_sound o sr es k e.1 hsound w hw
          rw [s1]
          simp only
          refine ih _ _ e.2 w' ?_ ?_ s2 (by omega)
          · rw [h1]
            exact fun l hl => hd l (List.mem_append_right _ hl)
          · rw [h1]
            rcases hbad with ⟨b, hb, hob⟩ | ⟨l, hl, h, hh, hM⟩
            · left
              rcases List.mem_cons.mp hb with rfl | hb
              · exact absurd hob hno
              · exact ⟨b, hb, hob⟩
            · right
              rcases List.mem_append.mp hl with hl | hl
              · exfalso
                rw [← h2] at hl
                obtain ⟨b, hb, rfl⟩ := List.mem_map.mp hl
                rcases hM with hM | hM
                · have := (hdated b hb).2 h hh
                  unfold Misdated at hM
                  omega
                · exact hnt ⟨b, hb, h, hh, hM⟩
              · exact ⟨l, hl, h, hh, hM⟩

/-! ### The program -/

/-- A run whose files are distinct and whose images can be set up. -/
structure ProperRun (o : ProgramOptions) (s : Settings) : Prop where
  size : 0 < o.chunkSize
  hits : o.outHits ≠ o.input
  events : o.outEvents ≠ o.input
  distinct : o.outHits = o.outEvents → o.outHits = []
  images : o.needsImages = true → ∃ sr es im, s.sr = .fin sr ∧ 0 ≤ sr ∧ sr ≤ 2 ^ 20 ∧ s.edges = .ok es ∧ 2 ≤ es.length ∧
    initImages (.fin sr) es = .ok im

theorem mainCore_loop (o : ProgramOptions) (s : Settings) (hp : ProperRun o s) (solve : List GaussRow → F64 × F64)
    (file : Bytes) (hf : file ≠ []) :
    ∃ es im, (o.needsImages = true → ImagesReady s.sr es im) ∧ ∀ fl fuel, mainCore o s solve fl fuel file =
      mainLoop o ⟨o.mode, s.params, solve⟩ s.sr es fl fuel 0 ⟨file, 0⟩ Clock.zero ⟨[], [], im, 0, 0⟩ := by
  have hlen : file.length ≠ 0 := fun h => hf (List.length_eq_zero_iff.mp h)
  have c1 : ¬ (o.outHits = o.input ∨ o.outEvents = o.input) := by
    intro h
    exact h.elim hp.hits hp.events
  have c2 : ¬ (o.outHits ≠ [] ∧ o.outHits = o.outEvents) := fun h => h.1 (hp.distinct h.2)
  unfold mainCore Reader.open
  rw [if_neg hlen]
  by_cases hni : o.needsImages = true
  · obtain ⟨sr, es, im, e1, e2, e3, e4, e5, e6⟩ := hp.images hni
    refine ⟨es, im, fun _ => ?_, ?_⟩
    · obtain ⟨d, hd, hz⟩ := initImages_ok _ es e5 im e6
      exact ⟨sr, _, d, e1, e2, e3, e5, by rw [e1]; exact hd, by omega, zeroStack_shaped _ _ _ hz⟩
    · intro fl fuel
      simp only
      rw [if_neg c1, if_neg c2, if_pos hni, e4, e1]
      simp only [Res.bind, e6]
  · refine ⟨[], [], fun h => absurd h hni, ?_⟩
    intro fl fuel
    simp only
    rw [if_neg c1, if_neg c2, if_neg hni]

theorem zero_hits (m : Mode) (cs : List Chunk) : perChunk m Clock.zero cs = chunkHits m ⟨0, 0, 0⟩ cs :=
  perChunk_hits m Clock.zero (by decide) cs

theorem sound_hits {m : Mode} {n : Nat} {file : Bytes} (hu : ¬ Unsound m n file) :
    (∀ b ∈ pieces n file, ¬ Overrun b) ∧
    ∀ hs ∈ perChunk m Clock.zero (fileChunks n file), ∀ h ∈ hs, h.spidertime.toNat < 2 ^ 48 ∧ h.tof ≠ none := by
  refine ⟨fun b hb ho => hu (.inl ⟨b, hb, ho⟩), ?_⟩
  rw [zero_hits]
  intro hs hm h hh
  have hM : ¬ Misdated h := fun hM => hu (.inr ⟨hs, hm, h, hh, .inl hM⟩)
  refine ⟨?_, fun ht => hu (.inr ⟨hs, hm, h, hh, .inr ht⟩)⟩
  exact (chunkHits_dichotomy m _ goodTimes_zero _ hs hm h hh).resolve_right hM

/-- C94: for every file that is not unsound, of any bytes whatever, and whatever fails in the libraries, the program does nothing
undefined, however long it runs. -/
theorem c94_defined (o : ProgramOptions) (s : Settings) (hp : ProperRun o s) (solve : List GaussRow → F64 × F64) (file : Bytes)
    (hu : ¬ Unsound o.mode o.chunkSize file) (fl : Nat → BatchFaults) (fuel : Nat) (u : UB) :
    mainCore o s solve fl fuel file ≠ .ub u := by
  by_cases hf : file = []
  · subst hf
    unfold mainCore Reader.open
    simp
  · obtain ⟨es, im, hi, hm⟩ := mainCore_loop o s hp solve file hf
    rw [hm]
    obtain ⟨h1, h2⟩ := sound_hits hu
    exact mainLoop_safe o _ _ es fl hp.size fuel 0 file 0 Clock.zero _ h1 h2 hi u

theorem ready_nil (o : ProgramOptions) (sr : F64) (es : List F64) (im : Stack) (hi : o.needsImages = true → ImagesReady sr es im) :
    OutputsReady o sr es ⟨[], [], im, 0, 0⟩ :=
  ⟨by intro g hg; simp at hg, by intro g hg; simp at hg, hi⟩

/-- C94: without failures of the libraries the program then ends normally. -/
theorem c94_ends (o : ProgramOptions) (s : Settings) (hp : ProperRun o s) (solve : List GaussRow → F64 × F64) (file : Bytes)
    (hf : file ≠ []) (hu : ¬ Unsound o.mode o.chunkSize file) (fuel : Nat) (hfuel : file.length < fuel) :
    ∃ w, mainCore o s solve (fun _ => {}) fuel file = .ok (.finished w) := by
  obtain ⟨es, im, hi, hm⟩ := mainCore_loop o s hp solve file hf
  rw [hm]
  obtain ⟨h1, h2⟩ := sound_hits hu
  exact mainLoop_ends o _ _ es hp.size fuel 0 file 0 Clock.zero _ h1 h2 (ready_nil o _ _ _ hi) (by omega)

/-- C94, exact: without failures of the libraries, the behaviour of the program on a file is undefined exactly if the file is
unsound.  (If no output reads the times of flight of the hits and clusters of one hit give no event, a hit without a time of flight
may go unnoticed: hence the last assumption.) -/
theorem c94_undefined_iff (o : ProgramOptions) (s : Settings) (hp : ProperRun o s) (solve : List GaussRow → F64 × F64) (file : Bytes)
    (hf : file ≠ []) (hr : s.params.range ≤ 2 ^ 62)
    (ho : o.outHits ≠ [] ∨ (o.needsImages = true ∧ o.tofMode = "hit".toList) ∨ s.params.minSize ≤ 1) :
    (∃ fuel u, mainCore o s solve (fun _ => {}) fuel file = .ub u) ↔ Unsound o.mode o.chunkSize file := by
  constructor
  · rintro ⟨fuel, u, h⟩
    by_contra hu
    exact c94_defined o s hp solve file hu _ fuel u h
  · intro hu
    obtain ⟨es, im, hi, hm⟩ := mainCore_loop o s hp solve file hf
    refine ⟨file.length + 1, ?_⟩
    rw [hm]
    refine mainLoop_bad o _ hr ?_ _ es hp.size _ 0 file 0 Clock.zero _ ?_ ?_ (ready_nil o _ _ _ hi) (by omega)
    · rcases ho with ho | ho | ho
      · exact .inl (.inl ho)
      · exact .inl (.inr ho)
      · exact .inr ho
    · rw [List.drop_zero, zero_hits]
      exact chunkHits_dichotomy o.mode _ goodTimes_zero _
    · rw [List.drop_zero, zero_hits]
      exact hu

/-! ### When a file is sound -/

theorem piece_whole (n : Nat) (hn : n % 8 = 0) (file : Bytes) (hf : file.length % 8 = 0) :
    ∀ p ∈ pieces n file, ¬ Overrun p := by
  intro p hp ho
  unfold pieces at hp
  obtain ⟨i, -, rfl⟩ := List.mem_map.mp hp
  have hni : n * i % 8 = 0 := by rw [Nat.mul_mod, hn, Nat.zero_mul]
  refine ho.1 ?_
  rw [List.length_take, List.length_drop]
  generalize n * i = a at hni
  omega

/-- The global time is away from both ends of its range, if known. -/
def MidTimes (t : Times) : Prop := (t.gdc = 0 ∨ (2 ^ 32 ≤ t.gdc ∧ t.gdc < 2 ^ 48 - 2 ^ 32)) ∧ t.low < 2 ^ 32

/-- A high word of the global time that is neither the first nor the last. -/
def MidHigh (w : U64) : Prop := IsGlobalPacket w → field w 56 4 = 5 → 1 ≤ field w 16 16 ∧ field w 16 16 < 65535

theorem nextG_mid (w : U64) (hw : MidHigh w) (t : Times) (h : MidTimes t) : MidTimes (nextG w t) := by
  unfold nextG
  have h1 : field w 16 32 < 2 ^ 32 := by unfold field; omega
  unfold MidHigh at hw
  unfold MidTimes at *
  split_ifs with g1 g2 g3 g4
  · exact h
  · exact ⟨h.1, h1⟩
  · have := hw g2 g4.1
    refine ⟨.inr ?_, h.2⟩
    show 2 ^ 32 ≤ field w 16 16 * 2 ^ 32 + t.low ∧ field w 16 16 * 2 ^ 32 + t.low < 2 ^ 48 - 2 ^ 32
    omega
  · exact h
  · exact h

theorem timesG_mid (t : Times) (h : MidTimes t) (ws : List U64) (hw : ∀ w ∈ ws, MidHigh w) : MidTimes (timesG t ws) := by
  unfold timesG
  induction ws generalizing t with
  | nil => exact h
  | cons w ws ih => exact ih _ (nextG_mid w (hw w (by simp)) t h) (fun w' hw' => hw w' (by simp [hw']))

theorem chunkHits_mid (t : Times) (ht : MidTimes t) (cs : List Chunk) (hw : ∀ k ∈ cs, ∀ w ∈ k.packets, MidHigh w) (hs : List Hit)
    (hm : hs ∈ chunkHits .gdc t cs) (h : Hit) (hh : h ∈ hs) : ¬ Misdated h ∧ h.tof ≠ none := by
  induction cs generalizing t with
  | nil => simp [chunkHits] at hm
  | cons k ks ih =>
    rw [chunkHits] at hm
    rcases List.mem_cons.mp hm with rfl | hm
    · simp only [hitsG, List.mem_map] at hh
      obtain ⟨i, hi, rfl⟩ := hh
      have hmid := (timesG_mid t ht (k.packets.take i) (fun w hw' => hw k (by simp) w (List.mem_of_mem_take hw'))).1
      unfold hitIndicesG at hi
      have hg0 := (of_decide_eq_true (List.mem_filter.mp hi).2).2.2
      have hmid' := hmid.resolve_left hg0
      generalize (timesG t (k.packets.take i)).gdc = g at *
      generalize (timesG t (k.packets.take i)).tdc = d at *
      have hgn : (BitVec.ofNat 64 g).toNat = g := by rw [BitVec.toNat_ofNat, Nat.mod_eq_of_lt (by omega)]
      constructor
      · rw [(misdated_or _ _ _ _ (by rw [hgn]; omega)).1, hgn]
        unfold Undatable
        omega
      · obtain ⟨t, h1, -⟩ := c05_bounded (k.packets.getD i 0) (BitVec.ofNat 64 d) (BitVec.ofNat 64 g) (headerChipId k.header)
        rw [h1]
        simp
    · exact ih _ (timesG_mid t ht k.packets (hw k (by simp))) (fun k' hk' => hw k' (by simp [hk'])) hm

/-- C94: with the global clock, a file and pieces of whole packets are sound if the high word of the global time is neither 0 (the
first 107 s) nor 65535 (the last 107 s of 81 days) in any packet. -/
theorem c94_sound_gdc (n : Nat) (hn : n % 8 = 0) (file : Bytes) (hf : file.length % 8 = 0)
    (hw : ∀ k ∈ fileChunks n file, ∀ w ∈ k.packets, IsGlobalPacket w → field w 56 4 = 5 →
      1 ≤ field w 16 16 ∧ field w 16 16 < 65535) : ¬ Unsound .gdc n file := by
  rintro (⟨p, hp, ho⟩ | ⟨hs, hm, h, hh, hbad⟩)
  · exact piece_whole n hn file hf p hp ho
  · obtain ⟨h1, h2⟩ := chunkHits_mid ⟨0, 0, 0⟩ (by unfold MidTimes; decide) _ hw hs hm h hh
    exact hbad.elim h1 h2

/-- C94: in either mode a hit without time of flight is one decoded from its trigger alone that comes before the trigger. -/
theorem c94_untimed (w tdc gdc : U64) (chip : Int) :
    (hitGdc w tdc gdc chip).tof ≠ none ∧
    ((hitTdc w tdc chip).tof = none ↔ (hitTdc w tdc chip).spidertime.toNat < tdc.toNat) := by
  constructor
  · obtain ⟨t, h1, -⟩ := c05_bounded w tdc gdc chip
    rw [h1]
    simp
  · obtain ⟨h1, h2⟩ := c06_tof_iff w tdc chip
    refine ⟨fun h => ?_, h2⟩
    by_contra hlt
    obtain ⟨t, h3, -⟩ := h1 (by omega)
    rw [h3] at h
    simp at h

/-! ### Files of each kind -/

/-- As `hitsAndEvents`, dated with the global clock. -/
def hitsAndEventsGdc : ProgramOptions := { hitsAndEvents with timing := "gdc".toList }

theorem plain_images : ∃ sr es im, plainSettings.sr = .fin sr ∧ 0 ≤ sr ∧ sr ≤ 2 ^ 20 ∧ plainSettings.edges = .ok es ∧
    2 ≤ es.length ∧ initImages (.fin sr) es = .ok im := by
  have h1 : (match F64.ofRat (1 / 100) with | .fin q => decide (0 ≤ q ∧ q ≤ 2 ^ 20) | _ => false) = true := by decide +kernel
  have h2 : (match initImages (F64.ofRat (1 / 100)) [.fin 0, .fin 1] with | .ok _ => true | _ => false) = true := by decide +kernel
  have e : plainSettings.sr = F64.ofRat (1 / 100) := rfl
  rw [e]
  generalize F64.ofRat (1 / 100) = v at h1 h2
  cases v with
  | nan => simp at h1
  | inf n => simp at h1
  | fin q =>
    have hq := of_decide_eq_true h1
    cases hi : initImages (.fin q) [.fin 0, .fin 1] with
    | ub u => rw [hi] at h2; simp at h2
    | throws m => rw [hi] at h2; simp at h2
    | ok im => exact ⟨q, _, im, rfl, hq.1, hq.2, rfl, by simp, hi⟩

theorem proper_tdc : ProperRun hitsAndEvents plainSettings :=
  ⟨by decide, by decide, by decide, by decide, fun _ => plain_images⟩

theorem proper_gdc : ProperRun hitsAndEventsGdc plainSettings :=
  ⟨by decide, by decide, by decide, by decide, fun _ => plain_images⟩

/-- Images of 517 x 517 pixels and two bins, from the neutrons. -/
def imagesOnly : ProgramOptions := { input := "i".toList, outTof := "d".toList, timing := "tdc".toList, tofMode := "neutron".toList }

/-- The assumptions on the images are met. -/
example : imagesOnly.needsImages = true ∧ ProperRun imagesOnly ⟨⟨F64.ofRat 5, 1, 75⟩, .fin 1, .ok (([0, 1, 2] : List ℚ).map .fin)⟩ := by
  refine ⟨by decide, by decide, by decide, by decide, by decide, fun _ => ?_⟩
  obtain ⟨im, h⟩ := initImages_one (([0, 1, 2] : List ℚ).map .fin) (by simp)
  exact ⟨1, _, im, rfl, by norm_num, by norm_num, rfl, by simp, h⟩

/-- A global time of 1 tick, a trigger, and a hit whose clock reads 64000000. -/
def earlyHit : Bytes := streamBytes [⟨0x0020000033585054#64,
  [0x4400000000010000#64, 0x4500000000000000#64, 0x6F00000000005000#64, 0xB000000000000FA0#64]⟩]

/-- The same with the high word 7. -/
def laterHit : Bytes := streamBytes [⟨0x0020000033585054#64,
  [0x4400000000010000#64, 0x4500000000070000#64, 0x6F00000000005000#64, 0xB000000000000FA0#64]⟩]

/-- A trigger at 1048576 and a hit at 147456. -/
def hitBeforeTrigger : Bytes := streamBytes [⟨0x0010000033585054#64, [0x6F00000100000000#64, 0xB123400000A00009#64]⟩]

/-- The assumptions of `c94_sound_gdc`, `c94_defined` and `c94_ends` are met by a file with a hit. -/
example : ¬ Unsound hitsAndEventsGdc.mode hitsAndEventsGdc.chunkSize laterHit ∧ laterHit ≠ [] ∧
    ProperRun hitsAndEventsGdc plainSettings ∧ (chunkHits .gdc ⟨0, 0, 0⟩ (fileChunks hitsAndEventsGdc.chunkSize laterHit)).flatten ≠ [] := by
  refine ⟨?_, by decide +kernel, proper_gdc, by decide +kernel⟩
  rw [show hitsAndEventsGdc.mode = .gdc by decide]
  refine c94_sound_gdc _ (by decide) _ (by decide +kernel) ?_
  have hall : ((fileChunks hitsAndEventsGdc.chunkSize laterHit).all fun k => k.packets.all fun w =>
      decide (IsGlobalPacket w → field w 56 4 = 5 → 1 ≤ field w 16 16 ∧ field w 16 16 < 65535)) = true := by decide +kernel
  intro k hk w hw
  exact of_decide_eq_true (List.all_eq_true.mp (List.all_eq_true.mp hall k hk) w hw)

example : ¬ Unsound hitsAndEvents.mode hitsAndEvents.chunkSize oneHit ∧
    (chunkHits .tdc ⟨0, 0, 0⟩ (fileChunks hitsAndEvents.chunkSize oneHit)).flatten ≠ [] := by
  refine ⟨?_, by decide +kernel⟩
  rintro (⟨p, hp, ho⟩ | h)
  · exact piece_whole _ (by decide) _ (by decide +kernel) p hp ho
  · revert h
    unfold Misdated
    decide +kernel

/-- C94 is not without content: in each of three ways a file makes the program's behaviour undefined.  A hit that comes a second or
more after the global time in the first round of the clock; a hit shortly before its trigger, without the global clock; and a file
that ends inside a packet. -/
theorem c94_witnesses : (∃ fuel u, mainCore hitsAndEventsGdc plainSettings (fun _ => (.nan, .nan)) (fun _ => {}) fuel earlyHit = .ub u) ∧
    (∃ fuel u, mainCore hitsAndEvents plainSettings (fun _ => (.nan, .nan)) (fun _ => {}) fuel hitBeforeTrigger = .ub u) ∧
    (∃ fuel u, mainCore hitsAndEvents plainSettings (fun _ => (.nan, .nan)) (fun _ => {}) fuel (oneHit.take 20) = .ub u) := by
  refine ⟨?_, ?_, ?_⟩
  · rw [c94_undefined_iff _ _ proper_gdc _ _ (by decide +kernel) (by decide) (.inl (by decide))]
    right
    unfold Misdated
    decide +kernel
  · rw [c94_undefined_iff _ _ proper_tdc _ _ (by decide +kernel) (by decide) (.inl (by decide))]
    right
    unfold Misdated
    decide +kernel
  · rw [c94_undefined_iff _ _ proper_tdc _ _ (by decide +kernel) (by decide) (.inl (by decide))]
    left
    refine ⟨oneHit.take 20, by decide +kernel, by decide +kernel, [], 0x0010000033585054#64, [0x6F00000000005000#64],
      by decide +kernel, by decide +kernel, by decide +kernel⟩

end Verif.Props
