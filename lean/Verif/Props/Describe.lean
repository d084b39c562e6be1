import Verif.Model.Describe
import Verif.Spec.Describe
import Verif.Lemmas.Text
import Verif.Lemmas.TextPrec
import Verif.Props.Binning

/-! # C115: what the descriptions of hits, events and settings tell -/

namespace Verif.Props

open Verif Verif.Spec

theorem after_self (p v : List Char) : after? p (p ++ v) = some v := by
  unfold after?
  simp

theorem before_self (p v : List Char) : before? p (v ++ p) = some v := by
  unfold before?
  rw [List.reverse_append, after_self]
  simp

theorem values_cons (n : String) (ns : List String) (v : List Char) (fs vs : List (List Char)) (h : values? ns fs = some vs) :
    values? (n :: ns) ((n.toList ++ v) :: fs) = some (v :: vs) := by
  simp [values?, after_self, h]

/-- A named value followed by other fields. -/
theorem fields_named {n v : List Char} (b : List Char) (hn : ',' ∉ n) (hv : ',' ∉ v) :
    fields ',' (n ++ (v ++ ',' :: b)) = (n ++ v) :: fields ',' b := by
  rw [← List.append_assoc]
  exact fields_append b (by simp [hn, hv])

theorem fields_last {n v : List Char} (hn : ',' ∉ n) (hv : ',' ∉ v) : fields ',' (n ++ v) = [n ++ v] :=
  fields_single (by simp [hn, hv])

theorem int_comma (n : Int) : ',' ∉ intText n := int_no_sep (by decide) (by decide) n

theorem nat_comma (n : Nat) : ',' ∉ natText n := not_mem_digits (by decide) (natText_digits n)

theorem double_comma (q : ℚ) : ',' ∉ doubleText (.fin q) := text_no_sep (by decide) (by decide) (by decide) (by decide) (by decide) q

/-- C115: a reader of the description of a hit gets the hit. -/
theorem c115_hit (h : Hit) (t : U32) (ht : h.tof = some t) : ∃ s, h.text = .ok s ∧
    readHitText? s = some (h.x, h.y, h.tot, h.toa, h.ftoa, t.toNat, h.spidertime.toNat) := by
  refine ⟨_, by unfold Hit.text; rw [ht], ?_⟩
  have s1 : ", y=".toList = ',' :: " y=".toList := by decide
  have s2 : ", tot=".toList = ',' :: " tot=".toList := by decide
  have s3 : ", toa=".toList = ',' :: " toa=".toList := by decide
  have s4 : ", ftoa=".toList = ',' :: " ftoa=".toList := by decide
  have s5 : ", tof=".toList = ',' :: " tof=".toList := by decide
  have s6 : ", spidertime=".toList = ',' :: " spidertime=".toList := by decide
  unfold readHitText?
  rw [s1, s2, s3, s4, s5, s6]
  simp only [List.append_assoc, List.cons_append]
  rw [fields_named _ (by decide) (int_comma _), fields_named _ (by decide) (int_comma _), fields_named _ (by decide) (int_comma _),
    fields_named _ (by decide) (int_comma _), fields_named _ (by decide) (int_comma _), fields_named _ (by decide) (nat_comma _),
    fields_last (by decide) (nat_comma _)]
  rw [values_cons _ _ _ _ _ (values_cons _ _ _ _ _ (values_cons _ _ _ _ _ (values_cons _ _ _ _ _ (values_cons _ _ _ _ _
    (values_cons _ _ _ _ _ (values_cons _ _ _ _ _ rfl))))))]
  simp only [readInt_intText, readNat_natText]

/-- C115: different hits have different descriptions. -/
theorem c115_hits_differ (a b : Hit) (s : List Char) (ha : a.text = .ok s) (hb : b.text = .ok s) : a = b := by
  have key : ∀ h : Hit, h.text = .ok s → ∃ t : U32, h.tof = some t ∧
      readHitText? s = some (h.x, h.y, h.tot, h.toa, h.ftoa, t.toNat, h.spidertime.toNat) := by
    intro h hh
    cases ht : h.tof with
    | none => unfold Hit.text at hh; rw [ht] at hh; cases hh
    | some t =>
      obtain ⟨s', h1, h2⟩ := c115_hit h t ht
      rw [hh, Res.ok.injEq] at h1
      subst h1
      exact ⟨t, rfl, h2⟩
  obtain ⟨t, ht, h1⟩ := key a ha
  obtain ⟨u, hu, h2⟩ := key b hb
  rw [h1] at h2
  simp only [Option.some.injEq, Prod.mk.injEq] at h2
  obtain ⟨e1, e2, e3, e4, e5, e6, e7⟩ := h2
  have e6' : t = u := BitVec.eq_of_toNat_eq e6
  have e7' : a.spidertime = b.spidertime := BitVec.eq_of_toNat_eq e7
  cases a
  cases b
  simp only at *
  subst e1 e2 e3 e4 e5 e6' e7'
  rw [ht, hu]

/-- C115: the description of a hit whose time of flight was never set is undefined, and of no other. -/
theorem c115_hit_undefined (h : Hit) : h.text = .ub .indeterminate ↔ h.tof = none := by
  unfold Hit.text
  cases h.tof <;> simp

example : (⟨3, -4, 5, 6, 7, some 8, 9⟩ : Hit).text = .ok "Hit: x=3, y=-4, tot=5, toa=6, ftoa=7, tof=8, spidertime=9".toList := by
  decide

/-- The six digits printed of a double. -/
def Printed (x : F64) (d : ℚ) : Prop := ∃ q, x = .fin q ∧ SixSignificant q d ∧ |d - q| ≤ |q| / 200000

theorem printed_fin (q : ℚ) : Printed (.fin q) (printedValue q) := ⟨q, rfl, printedValue_spec q⟩

/-- C115: a reader of the description of a neutron gets the number of hits, and the position and time of flight with six digits. -/
theorem c115_neutron_partial (n : Neutron) (hx : n.x.isFinite = true) (hy : n.y.isFinite = true) (ht : n.tof.isFinite = true) :
    ∃ x y t, readNeutronText? ["Neutron: x= ", " y= ", " tof= ", " nHits= "] n.text = some (x, y, t, (n.nHits : Int)) ∧
      Printed n.x x ∧ Printed n.y y ∧ Printed n.tof t := by
  obtain ⟨x, y, t, tot, k⟩ := n
  cases x <;> simp only [F64.isFinite, Bool.false_eq_true] at hx
  cases y <;> simp only [F64.isFinite, Bool.false_eq_true] at hy
  cases t <;> simp only [F64.isFinite, Bool.false_eq_true] at ht
  rename_i x y t
  refine ⟨printedValue x, printedValue y, printedValue t, ?_, printed_fin x, printed_fin y, printed_fin t⟩
  have s1 : ", y= ".toList = ',' :: " y= ".toList := by decide
  have s2 : ", tof= ".toList = ',' :: " tof= ".toList := by decide
  have s3 : ", nHits= ".toList = ',' :: " nHits= ".toList := by decide
  unfold readNeutronText? Neutron.text
  rw [s1, s2, s3]
  simp only [List.append_assoc, List.cons_append]
  rw [fields_named _ (by decide) (double_comma _), fields_named _ (by decide) (double_comma _), fields_named _ (by decide) (double_comma _),
    fields_last (by decide) (nat_comma _)]
  rw [values_cons _ _ _ _ _ (values_cons _ _ _ _ _ (values_cons _ _ _ _ _ (values_cons _ _ _ _ _ rfl)))]
  have hi : readInt? (natText k) = some (k : Int) := by
    have := readInt_intText k
    unfold intText at this
    rw [if_neg (by omega)] at this
    simpa using this
  simp only [readDecimal_doubleText, hi]

/-- C115: the same for the events of the legacy library. -/
theorem c115_event_partial (n : NEvent) (hx : n.x.isFinite = true) (hy : n.y.isFinite = true) (ht : n.tof.isFinite = true) :
    ∃ x y t, readNeutronText? ["NeutronEvent: x=", " y=", " tof=", " nHits="] n.text = some (x, y, t, n.nHits) ∧
      Printed n.x x ∧ Printed n.y y ∧ Printed n.tof t := by
  obtain ⟨x, y, t, tot, k⟩ := n
  cases x <;> simp only [F64.isFinite, Bool.false_eq_true] at hx
  cases y <;> simp only [F64.isFinite, Bool.false_eq_true] at hy
  cases t <;> simp only [F64.isFinite, Bool.false_eq_true] at ht
  rename_i x y t
  refine ⟨printedValue x, printedValue y, printedValue t, ?_, printed_fin x, printed_fin y, printed_fin t⟩
  have s1 : ", y=".toList = ',' :: " y=".toList := by decide
  have s2 : ", tof=".toList = ',' :: " tof=".toList := by decide
  have s3 : ", nHits=".toList = ',' :: " nHits=".toList := by decide
  unfold readNeutronText? NEvent.text
  rw [s1, s2, s3]
  simp only [List.append_assoc, List.cons_append]
  rw [fields_named _ (by decide) (double_comma _), fields_named _ (by decide) (double_comma _), fields_named _ (by decide) (double_comma _),
    fields_last (by decide) (int_comma _)]
  rw [values_cons _ _ _ _ _ (values_cons _ _ _ _ _ (values_cons _ _ _ _ _ (values_cons _ _ _ _ _ rfl)))]
  simp only [readDecimal_doubleText, readInt_intText]

example : (⟨.fin (201 / 2), .fin 7, .fin 123456789, .fin 5, 9⟩ : Neutron).text = "Neutron: x= 100.5, y= 7, tof= 1.23457e+08, nHits= 9".toList := by
  decide +kernel

/-- C115: false for neutrons: two neutrons a thousandth of a pixel apart have the same description; so have neutrons of different
charge. -/
theorem c115_false_neutron : ∃ a b c : Neutron, a.x ≠ b.x ∧ a.text = b.text ∧ a.tot ≠ c.tot ∧ a.text = c.text := by
  refine ⟨⟨.fin (1024001 / 1024), .fin 7, .fin 8, .fin 5, 9⟩, ⟨.fin (1024002 / 1024), .fin 7, .fin 8, .fin 5, 9⟩,
    ⟨.fin (1024001 / 1024), .fin 7, .fin 8, .fin 6, 9⟩, ?_⟩
  decide +kernel

/-! ## Settings -/

theorem abs_fields {r : ℚ} (size range : U64) (rest : List Char) : fields ',' (absText (.fin r) size range ++ ',' :: rest) =
    ["ABS: radius=".toList ++ doubleText (.fin r), " min_cluster_size=".toList ++ natText size.toNat,
      " spider_time_range=".toList ++ natText range.toNat] ++ fields ',' rest := by
  have s1 : ", min_cluster_size=".toList = ',' :: " min_cluster_size=".toList := by decide
  have s2 : ", spider_time_range=".toList = ',' :: " spider_time_range=".toList := by decide
  unfold absText
  rw [s1, s2]
  simp only [List.append_assoc, List.cons_append]
  rw [fields_named _ (by decide) (double_comma _), fields_named _ (by decide) (nat_comma _), fields_named _ (by decide) (nat_comma _)]
  rfl

theorem abs_read {r : ℚ} (size range : U64) : readAbs? ["ABS: radius=".toList ++ doubleText (.fin r),
    " min_cluster_size=".toList ++ natText size.toNat, " spider_time_range=".toList ++ natText range.toNat] =
      some (printedValue r, size.toNat, range.toNat) := by
  unfold readAbs?
  rw [values_cons _ _ _ _ _ (values_cons _ _ _ _ _ (values_cons _ _ _ _ _ rfl))]
  simp only [readDecimal_doubleText, readNat_natText]

theorem settings_read {r s : ℚ} (size range : U64) (b : List Char) (fs : List (List Char)) (bins : ShownBins)
    (hb : ∀ rest, fields ',' (b ++ ',' :: rest) = fs ++ fields ',' rest) (hr : readBins? fs = some bins) :
    readSettings? (absText (.fin r) size range ++ ',' :: b ++ superText (.fin s)) =
      some ⟨printedValue r, size.toNat, range.toNat, bins, printedValue s⟩ := by
  have s1 : ", Super Resolution=".toList = ',' :: " Super Resolution=".toList := by decide
  unfold superText readSettings?
  rw [s1]
  simp only [List.append_assoc, List.cons_append]
  rw [abs_fields, hb, fields_last (by decide) (double_comma _)]
  have e1 : ([("ABS: radius=".toList ++ doubleText (.fin r)), (" min_cluster_size=".toList ++ natText size.toNat),
      (" spider_time_range=".toList ++ natText range.toNat)] ++ (fs ++ [" Super Resolution=".toList ++ doubleText (.fin s)])).take 3 =
      ["ABS: radius=".toList ++ doubleText (.fin r), " min_cluster_size=".toList ++ natText size.toNat,
        " spider_time_range=".toList ++ natText range.toNat] := by
    rw [List.take_append_of_le_length (by simp)]
    rfl
  have e2 : ([("ABS: radius=".toList ++ doubleText (.fin r)), (" min_cluster_size=".toList ++ natText size.toNat),
      (" spider_time_range=".toList ++ natText range.toNat)] ++ (fs ++ [" Super Resolution=".toList ++ doubleText (.fin s)])).drop 3 =
      fs ++ [" Super Resolution=".toList ++ doubleText (.fin s)] := by rfl
  rw [e1, e2, abs_read, List.dropLast_concat, hr, ← List.append_assoc, List.getLast?_concat]
  simp only [Option.bind_some, after_self, readDecimal_doubleText]

theorem custom_bins (edges : List F64) : ∃ b, customText edges = ',' :: b ∧
    (∀ rest, fields ',' (b ++ ',' :: rest) = [b] ++ fields ',' rest) ∧ readBins? [b] = some (.custom (edges.length - 1)) := by
  have s1 : ", Custom TOF binning with ".toList = ',' :: " Custom TOF binning with ".toList := by decide
  refine ⟨" Custom TOF binning with ".toList ++ (natText (edges.length - 1) ++ " bins".toList), ?_, ?_, ?_⟩
  · unfold customText
    rw [s1]
    simp only [List.append_assoc, List.cons_append]
  · intro rest
    have hn : ',' ∉ natText (edges.length - 1) ++ " bins".toList := by
      rw [List.mem_append, not_or]
      exact ⟨nat_comma _, by decide⟩
    rw [List.append_assoc, fields_named _ (by decide) hn]
    rfl
  · simp only [readBins?]
    rw [if_neg]
    · rw [after_self, Option.bind_some, before_self]
      simp only [readNat_natText, Option.map_some]
    · intro h
      have := congrArg (fun l => l.take 2) h
      revert this
      rw [show " Custom TOF binning with ".toList = ' ' :: 'C' :: "ustom TOF binning with ".toList by decide,
        show " TOF binning not set".toList = ' ' :: 'T' :: "OF binning not set".toList by decide]
      simp

theorem uniform_bins (n : Int) (max : F64) (p : ℚ) (hp : F64.mul max (F64.ofInt 1000) = .fin p) : ∃ b fs, uniformText n max = ',' :: b ∧
    (∀ rest, fields ',' (b ++ ',' :: rest) = fs ++ fields ',' rest) ∧ readBins? fs = some (.uniform n (printedValue p)) := by
  have s1 : ", TOF bins=".toList = ',' :: " TOF bins=".toList := by decide
  have s2 : ", TOF max=".toList = ',' :: " TOF max=".toList := by decide
  refine ⟨" TOF bins=".toList ++ (intText n ++ ',' :: (" TOF max=".toList ++ (doubleText (.fin p) ++ " ms".toList))),
    [" TOF bins=".toList ++ intText n, " TOF max=".toList ++ (doubleText (.fin p) ++ " ms".toList)], ?_, ?_, ?_⟩
  · unfold uniformText
    rw [s1, s2, hp]
    simp only [List.append_assoc, List.cons_append]
  · intro rest
    have hn : ',' ∉ doubleText (.fin p) ++ " ms".toList := by
      rw [List.mem_append, not_or]
      exact ⟨double_comma _, by decide⟩
    simp only [List.append_assoc, List.cons_append]
    rw [fields_named _ (by decide) (int_comma _), ← List.append_assoc (doubleText (.fin p)), fields_named _ (by decide) hn]
    rfl
  · simp only [readBins?]
    rw [after_self, Option.bind_some, readInt_intText, after_self, Option.bind_some, before_self, Option.bind_some, readDecimal_doubleText]

theorem finite_fin {x : F64} (h : x.isFinite = true) : ∃ q, x = .fin q := by
  cases x with
  | fin q => exact ⟨q, rfl⟩
  | nan => simp [F64.isFinite] at h
  | inf s => simp [F64.isFinite] at h

/-- What is shown are the settings: sizes exactly, doubles with six digits, and one bin less than there are edges. -/
def ShowsSettings (s : Settings) (max : F64) (shown : Shown) : Prop :=
  Printed s.params.feature shown.radius ∧ shown.size = s.params.minSize ∧ shown.range = s.params.range ∧ Printed s.sr shown.sr ∧
    (∀ es, s.edges = .ok es → (es.length : Int) = shown.bins.count + 1) ∧
    ∀ n m, shown.bins = .uniform n m → Printed (F64.mul max (F64.ofInt 1000)) m

theorem edges_count (t : TofBinning) (hc : t.custom = []) (es : List F64) (h : t.getBinEdges = .ok es) :
    (es.length : Int) = t.numBins.getD 1500 + 1 := by
  unfold TofBinning.getBinEdges at h
  simp only [hc, ne_eq, not_true_eq_false, if_false] at h
  split_ifs at h with h1 h2
  rw [Res.ok.injEq] at h
  subst h
  simp only [List.length_map, List.length_range]
  omega

theorem custom_count (t : TofBinning) (hc : t.custom ≠ []) (es : List F64) (h : t.getBinEdges = .ok es) :
    (es.length : Int) = (ShownBins.custom (t.custom.length - 1)).count + 1 := by
  rw [c34_custom t hc, Res.ok.injEq] at h
  subst h
  have := List.length_pos_iff.mpr hc
  simp only [ShownBins.count]
  omega

/-- C115: the description of a JSON configuration, made before anything is done, tells the settings in use. -/
theorem c115_json_partial (c : JsonConfig) (s : Settings) (hs : c.settings = .ok s) (hr : s.params.feature.isFinite = true)
    (hsr : s.sr.isFinite = true) (hm : (F64.mul (c.binning.tofMax.getD defaultTofMax) (F64.ofInt 1000)).isFinite = true) :
    ∃ t shown, c.text = .ok t ∧ readSettings? t = some shown ∧ ShowsSettings s (c.binning.tofMax.getD defaultTofMax) shown := by
  unfold JsonConfig.settings at hs
  simp only [bind, Res.bind] at hs
  unfold JsonConfig.text
  simp only [bind, Res.bind]
  cases h1 : c.radius <;> rw [h1] at hs <;> simp only at hs <;> try contradiction
  cases h2 : c.minClusterSize <;> rw [h2] at hs <;> simp only at hs <;> try contradiction
  cases h3 : c.spiderTimeRange <;> rw [h3] at hs <;> simp only at hs <;> try contradiction
  cases h4 : c.superResolution <;> rw [h4] at hs <;> simp only at hs <;> try contradiction
  rw [Res.ok.injEq] at hs
  subst hs
  rename_i r m t sr
  obtain ⟨r, rfl⟩ := finite_fin hr
  obtain ⟨sr, rfl⟩ := finite_fin hsr
  obtain ⟨p, hp⟩ := finite_fin hm
  simp only
  by_cases hc : c.binning.custom = []
  · rw [if_neg (by simpa using hc)]
    obtain ⟨b, fs, e1, e2, e3⟩ := uniform_bins (c.binning.numBins.getD 1500) _ p hp
    rw [e1]
    refine ⟨_, _, rfl, settings_read m t b fs _ e2 e3, printed_fin r, rfl, rfl, printed_fin sr, ?_, ?_⟩
    · intro es hes
      exact edges_count _ hc es hes
    · intro n q hq
      cases hq
      rw [hp]
      exact printed_fin p
  · rw [if_pos (by simpa using hc)]
    obtain ⟨b, e1, e2, e3⟩ := custom_bins c.binning.custom
    rw [e1]
    refine ⟨_, _, rfl, settings_read m t b _ _ e2 e3, printed_fin r, rfl, rfl, printed_fin sr, ?_, ?_⟩
    · intro es hes
      exact custom_count _ hc es hes
    · intro n q hq
      cases hq

/-- C115: if a setting cannot be read, neither can the description be made, and it fails in the same way. -/
theorem c115_json_fails (c : JsonConfig) (e : String) : c.text = .throws e ↔ c.settings = .throws e := by
  unfold JsonConfig.settings JsonConfig.text
  simp only [bind, Res.bind]
  cases c.radius with
  | throws => simp
  | ub => simp
  | ok =>
    cases c.minClusterSize with
    | throws => simp
    | ub => simp
    | ok =>
      cases c.spiderTimeRange with
      | throws => simp
      | ub => simp
      | ok => cases c.superResolution <;> simp

/-- C115: the same for the configurations in the old format whose bins have been set. -/
theorem c115_user_partial (c : UserConfig) (hr : c.radius.isFinite = true) (hsr : c.superResolution.isFinite = true) (n : Int) (max : F64)
    (hn : c.binning.numBins = some n) (hx : c.binning.tofMax = some max) (hm : (F64.mul max (F64.ofInt 1000)).isFinite = true) :
    ∃ shown, readSettings? c.text = some shown ∧ ShowsSettings c.settings max shown := by
  obtain ⟨r, hr'⟩ := finite_fin hr
  obtain ⟨sr, hsr'⟩ := finite_fin hsr
  obtain ⟨p, hp⟩ := finite_fin hm
  unfold UserConfig.text UserConfig.settings
  simp only [hr', hsr', hn, hx, Option.isSome_some, true_and, Option.getD_some]
  by_cases hc : c.binning.custom = []
  · rw [if_pos hc]
    obtain ⟨b, fs, e1, e2, e3⟩ := uniform_bins n _ p hp
    rw [e1]
    refine ⟨_, settings_read _ _ b fs _ e2 e3, printed_fin r, rfl, rfl, printed_fin sr, ?_, ?_⟩
    · intro es hes
      have := edges_count _ hc es hes
      rw [hn] at this
      exact this
    · intro n' q hq
      cases hq
      rw [hp]
      exact printed_fin p
  · rw [if_neg hc, if_pos hc]
    obtain ⟨b, e1, e2, e3⟩ := custom_bins c.binning.custom
    rw [e1]
    refine ⟨_, settings_read _ _ b _ _ e2 e3, printed_fin r, rfl, rfl, printed_fin sr, ?_, ?_⟩
    · intro es hes
      exact custom_count _ hc es hes
    · intro n q hq
      cases hq

/-- C115: `Params` of the legacy library. -/
theorem c115_params_partial (p : LegacyParams) (hr : p.radius.isFinite = true) :
    ∃ r, readAbs? (fields ',' p.text) = some (r, p.minClusterSize.toNat, p.spiderTimeRange.toNat) ∧ Printed p.radius r := by
  obtain ⟨q, hq⟩ := finite_fin hr
  refine ⟨printedValue q, ?_, by rw [hq]; exact printed_fin q⟩
  have s1 : ", min_cluster_size=".toList = ',' :: " min_cluster_size=".toList := by decide
  have s2 : ", spider_time_range=".toList = ',' :: " spider_time_range=".toList := by decide
  unfold LegacyParams.text
  rw [hq, ← abs_read]
  congr 1
  unfold absText
  rw [s1, s2]
  simp only [List.append_assoc, List.cons_append]
  rw [fields_named _ (by decide) (double_comma _), fields_named _ (by decide) (nat_comma _), fields_last (by decide) (nat_comma _)]

/-- C115: the greatest time of flight is shown within one part in 100000 of a thousand times the last edge. -/
theorem c115_max_partial (t : TofBinning) (n : Nat) (m d : ℚ) (hc : t.custom = []) (h0 : 0 < n) (hn : n < 2 ^ 31 - 1)
    (hb : t.numBins = some (n : Int)) (hm : t.tofMax = some (.fin m)) (h1 : (2 : ℚ) ^ (-900 : ℤ) ≤ m) (h2 : m ≤ 2 ^ (900 : ℤ))
    (hd : Printed (F64.mul (.fin m) (F64.ofInt 1000)) d) :
    ∃ es q, t.getBinEdges = .ok es ∧ es.getLast? = some (.fin q) ∧ |d - 1000 * q| ≤ 1000 * q / 100000 := by
  obtain ⟨qs, e1, e2, -, e4⟩ := c34_strict t n m hc h0 hn (by rw [hb]; rfl) (by rw [hm]; rfl) h1 h2
  have hmpos : 0 < m := lt_of_lt_of_le (two_zpow_pos _) h1
  have hlast : ∃ q, qs[n]? = some q := ⟨qs[n]'(by omega), List.getElem?_eq_getElem (by omega)⟩
  obtain ⟨q, hq⟩ := hlast
  refine ⟨_, q, e1, ?_, ?_⟩
  · rw [List.getLast?_eq_getElem?, List.getElem?_map, List.length_map, e2, Nat.add_sub_cancel, hq]
    rfl
  have hqm := e4 n q hq
  have hnq : (n : ℚ) ≠ 0 := by exact_mod_cast h0.ne'
  rw [mul_div_assoc, div_self hnq, mul_one] at hqm
  obtain ⟨p, hp, -, hdp⟩ := hd
  have r1 := abs_rndQ_sub_le (q := m * 1000) (by
    rw [abs_of_pos (by positivity)]
    refine le_trans ?_ (le_trans h1 (le_mul_of_one_le_right hmpos.le (by norm_num)))
    exact zpow_le_zpow_right₀ (by norm_num) (by norm_num))
  have hmul : F64.mul (.fin m) (F64.ofInt 1000) = .fin (rndQ (m * 1000)) := by
    have := mul_counter m 1000 (by norm_num)
    push_cast at this
    rw [this, F64.ofRat_fin]
    rw [abs_of_pos (by positivity)]
    calc m * 1000 ≤ 2 ^ (900 : ℤ) * 2 ^ (10 : ℤ) := mul_le_mul h2 (by norm_num) (by norm_num) (two_zpow_pos _).le
      _ = 2 ^ (910 : ℤ) := by rw [← zpow_add₀ (by norm_num)]; norm_num
      _ ≤ 2 ^ (1000 : ℤ) := zpow_le_zpow_right₀ (by norm_num) (by norm_num)
  rw [hmul, F64.fin.injEq] at hp
  subst hp
  rw [abs_of_pos (by positivity : (0 : ℚ) < m * 1000)] at r1
  obtain ⟨u, hu⟩ : ∃ u, u = rndQ (m * 1000) := ⟨_, rfl⟩
  rw [← hu] at r1 hdp
  have k53 : (2 : ℚ) ^ (-53 : ℤ) ≤ 1 / 100000000 := by norm_num
  have k51 : (2 : ℚ) ^ (-51 : ℤ) ≤ 1 / 100000000 := by norm_num
  have a1 : |u - m * 1000| ≤ m * 1000 / 100000000 := by
    refine r1.trans ?_
    rw [div_eq_mul_one_div]
    exact mul_le_mul_of_nonneg_left k53 (by positivity)
  have a2 : |q - m| ≤ m / 100000000 := by
    refine hqm.trans ?_
    rw [div_eq_mul_one_div]
    exact mul_le_mul_of_nonneg_left k51 hmpos.le
  have hu0 : 0 < u := by rw [abs_le] at a1; linarith [a1.1]
  rw [abs_of_pos hu0] at hdp
  rw [abs_le] at *
  obtain ⟨b1, b2⟩ := a1
  obtain ⟨c1, c2⟩ := a2
  obtain ⟨d1, d2⟩ := hdp
  constructor <;> linarith

/-- The default configuration. -/
example : ∃ c, JsonConfig.make defaultJson = .ok c ∧ c.text =
    .ok "ABS: radius=5, min_cluster_size=1, spider_time_range=75, TOF bins=1500, TOF max=16.7 ms, Super Resolution=1".toList :=
  ⟨_, rfl, by decide +kernel⟩

example : UserConfig.default.text =
    "ABS: radius=5, min_cluster_size=1, spider_time_range=75, TOF bins=1500, TOF max=16.6667 ms, Super Resolution=1".toList := by
  decide +kernel

/-- C115: false for settings: of custom bins only the number is shown, and a radius is shown with six digits. -/
theorem c115_false_settings : ∃ a b c : UserConfig, a.text = b.text ∧ a.settings.edges ≠ b.settings.edges ∧ a.text = c.text ∧
    a.settings.params.feature ≠ c.settings.params.feature := by
  refine ⟨{ UserConfig.default with binning := ⟨none, none, [.fin 0, .fin 1, .fin 2]⟩ },
    { UserConfig.default with binning := ⟨none, none, [.fin 0, .fin 1, .fin 3]⟩ },
    { UserConfig.default with binning := ⟨none, none, [.fin 0, .fin 1, .fin 2]⟩, radius := .fin (5 + 1 / 2 ^ 20) }, ?_⟩
  refine ⟨by decide +kernel, ?_, by decide +kernel, ?_⟩
  · unfold UserConfig.settings
    simp only
    rw [c34_custom _ (by simp), c34_custom _ (by simp)]
    intro h
    rw [Res.ok.injEq] at h
    revert h
    decide +kernel
  · unfold UserConfig.settings
    simp only
    decide +kernel

/-- C115: an object whose number of bins was taken away says that no bins are set; 1500 are used. -/
theorem c115_false_unset : ∃ c : UserConfig, (∃ shown, readSettings? c.text = some shown ∧ shown.bins = .unset) ∧
    ∃ es, c.settings.edges = .ok es ∧ es.length = 1501 := by
  refine ⟨{ UserConfig.default with binning := ⟨none, some (.fin 1), []⟩ }, ⟨⟨5, 1, 75, .unset, 1⟩, by decide +kernel, rfl⟩, _, rfl, ?_⟩
  simp

end Verif.Props
