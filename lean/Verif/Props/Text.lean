import Verif.Lemmas.Text
import Verif.Props.Tiff
import Verif.Props.Binning
import Verif.Props.Gdc

/-! # C77: the text files can be read back -/

namespace Verif.Props

open Verif Verif.Spec

theorem spectrum_rows (rows : List (ℚ × U64)) :
    readTable? "shutter_time,counts".toList spectrumRow? (spectraText (rows.map fun r => (.fin r.1, r.2))) =
      some (rows.map fun r => (printedValue r.1, r.2.toNat)) := by
  have h := readTable_rows "shutter_time,counts".toList spectrumRow?
    (fun r : ℚ × U64 => doubleText (.fin r.1) ++ ',' :: natText r.2.toNat) (fun r => (printedValue r.1, r.2.toNat)) rows
    (by decide)
    (by
      intro r _ h
      rcases List.mem_append.mp h with h | h
      · exact text_no_sep (by decide) (by decide) (by decide) (by decide) (by decide) r.1 h
      · rcases List.mem_cons.mp h with h | h
        · simp at h
        · exact not_mem_digits (by decide) (natText_digits _) h)
    (by
      intro r _
      rw [fields_append _ (text_no_sep (by decide) (by decide) (by decide) (by decide) (by decide) r.1),
        fields_single (not_mem_digits (by decide) (natText_digits _))]
      simp only [spectrumRow?]
      rw [readDecimal_doubleText, readNat_natText])
  rw [← h]
  unfold spectraText
  rw [List.map_map]
  rfl

/-- C77: a reader of the spectrum file gets every row, the counts as they were and the times rounded to six significant
digits. -/
theorem c77_spectrum (rows : List (F64 × U64)) (hfin : ∀ r ∈ rows, ∃ q, r.1 = .fin q) :
    ∃ read, readTable? "shutter_time,counts".toList spectrumRow? (spectraText rows) = some read ∧
      read.length = rows.length ∧
      ∀ (i : Nat) (r : F64 × U64), rows[i]? = some r → ∃ q d, r.1 = .fin q ∧ read[i]? = some (d, r.2.toNat) ∧
        SixSignificant q d ∧ |d - q| ≤ |q| / 200000 := by
  obtain ⟨qs, rfl⟩ : ∃ qs : List (ℚ × U64), rows = qs.map fun r => (F64.fin r.1, r.2) := by
    induction rows with
    | nil => exact ⟨[], rfl⟩
    | cons r rs ih =>
      obtain ⟨q, hq⟩ := hfin r (by simp)
      obtain ⟨qs, hqs⟩ := ih (fun r hr => hfin r (by simp [hr]))
      refine ⟨(q, r.2) :: qs, ?_⟩
      rw [hqs, List.map_cons, ← hq]
  refine ⟨_, spectrum_rows qs, by simp, ?_⟩
  intro i r hr
  rw [List.getElem?_map] at hr
  obtain ⟨a, ha, rfl⟩ := Option.map_eq_some_iff.mp hr
  refine ⟨a.1, printedValue a.1, rfl, ?_, printedValue_spec a.1⟩
  rw [List.getElem?_map, ha]
  rfl

/-- C77: times that differ by more than one part in 100000 are printed differently, the smaller one as the smaller number. -/
theorem c77_distinct_partial (a b d d' : ℚ) (ha : 0 ≤ a) (hab : a < b * (1 - 1 / 100000))
    (hd : readDecimal? (doubleText (.fin a)) = some d) (hd' : readDecimal? (doubleText (.fin b)) = some d') : d < d' := by
  rw [readDecimal_doubleText] at hd hd'
  injection hd with hd
  injection hd' with hd'
  have h1 := (printedValue_spec a).2
  have h2 := (printedValue_spec b).2
  rw [hd] at h1
  rw [hd'] at h2
  have hb : 0 < b := by
    by_contra hn
    nlinarith
  rw [abs_of_nonneg ha, abs_le] at h1
  rw [abs_of_pos hb, abs_le] at h2
  linarith [h1.2, h2.1]

/-- C77: with up to 90000 uniform bins (any end time of ordinary size) the printed times increase from line to line. -/
theorem c77_uniform_partial (t : TofBinning) (n : Nat) (m : ℚ) (hc : t.custom = []) (h0 : 0 < n) (hn : n ≤ 90000)
    (hb : t.numBins.getD 1500 = n) (hm : t.tofMax.getD (F64.ofRat (1 / 60)) = .fin m)
    (h1 : (2 : ℚ) ^ (-900 : ℤ) ≤ m) (h2 : m ≤ 2 ^ (900 : ℤ)) :
    ∃ edges, t.getBinEdges = .ok edges ∧ edges.length = n + 1 ∧
      ∀ (i j : Nat) (a b : F64), i < j → edges[i]? = some a → edges[j]? = some b → ∃ d d',
        readDecimal? (doubleText a) = some d ∧ readDecimal? (doubleText b) = some d' ∧ d < d' := by
  obtain ⟨qs, hq, hlen, -, hval⟩ := c34_strict t n m hc h0 (by omega) hb hm h1 h2
  refine ⟨_, hq, by simp [hlen], ?_⟩
  intro i j a b hij ha hb'
  rw [List.getElem?_map] at ha hb'
  obtain ⟨x, hx, rfl⟩ := Option.map_eq_some_iff.mp ha
  obtain ⟨y, hy, rfl⟩ := Option.map_eq_some_iff.mp hb'
  refine ⟨_, _, readDecimal_doubleText x, readDecimal_doubleText y, ?_⟩
  have vx := hval i x hx
  have vy := hval j y hy
  have hj : j ≤ n := by
    have := (List.getElem?_eq_some_iff.mp hy).1
    omega
  have hmpos : 0 < m := lt_of_lt_of_le (two_zpow_pos _) h1
  have hnpos : (0 : ℚ) < n := by exact_mod_cast h0
  have hs : 0 < m / n := div_pos hmpos hnpos
  generalize hs' : m / n = s at hs
  have e1 : m * i / n = s * i := by rw [← hs']; ring
  have e2 : m * j / n = s * j := by rw [← hs']; ring
  rw [e1] at vx
  rw [e2] at vy
  have h51 : (2 : ℚ) ^ (-51 : ℤ) = 1 / 2251799813685248 := by norm_num
  rw [h51, abs_le] at vx vy
  have hi0 : (0 : ℚ) ≤ i := Nat.cast_nonneg _
  have hij' : (i : ℚ) + 1 ≤ j := by exact_mod_cast hij
  have hj' : (j : ℚ) ≤ 90000 := by
    have : j ≤ 90000 := by omega
    exact_mod_cast this
  have hsi : 0 ≤ s * i := mul_nonneg hs.le hi0
  have hxn : 0 ≤ x := by
    have := vx.1
    nlinarith
  refine c77_distinct_partial x y _ _ hxn ?_ (readDecimal_doubleText x) (readDecimal_doubleText y)
  have hx2 : x ≤ s * i * (1 + 1 / 2251799813685248) := by linarith [vx.2]
  have hy2 : s * j * (1 - 1 / 2251799813685248) ≤ y := by linarith [vy.1]
  have key : (i : ℚ) * (1 + 1 / 2251799813685248) < j * (1 - 1 / 2251799813685248) * (1 - 1 / 100000) := by
    nlinarith
  have : s * i * (1 + 1 / 2251799813685248) < s * j * (1 - 1 / 2251799813685248) * (1 - 1 / 100000) := by
    have := mul_lt_mul_of_pos_left key hs
    linarith
  nlinarith

/-- The default settings are within these limits. -/
example : TofBinning.default.custom = [] ∧ TofBinning.default.numBins.getD 1500 = (1500 : Nat) ∧ 1500 ≤ 90000 := by decide

/-- C77 is false without that limit: with a million bins in one frame neighbouring bins get the same time. -/
theorem c77_false_collision : ∃ edges, (⟨some 1000000, none, []⟩ : TofBinning).getBinEdges = .ok edges ∧
    ∃ a b, edges[900000]? = some a ∧ edges[900001]? = some b ∧ F64.lt a b = true ∧
      doubleText a = "0.015".toList ∧ doubleText b = "0.015".toList := by
  refine ⟨_, getBinEdges_uniform _ 1000000 rfl (by norm_num) rfl, edgeAt (F64.ofRat (1 / 60)) 1000000 900000,
    edgeAt (F64.ofRat (1 / 60)) 1000000 900001, ?_, ?_, by decide +kernel, by decide +kernel, by decide +kernel⟩
  · rw [List.getElem?_map, List.getElem?_range (by norm_num)]
    rfl
  · rw [List.getElem?_map, List.getElem?_range (by norm_num)]
    rfl

/-- C77: what a save leaves in the spectrum file, read back: for every image its end time to six digits and the number of
its counts. -/
theorem c77_saved {n d : Nat} (hd : d < 2 ^ 16) (out base : Path) (edges : List F64) (im : Stack) (hs : Shaped n d im)
    (he : edges.length = n + 1) (hfin : ∀ e ∈ edges, ∃ q, e = .fin q) (d0 d1 : Dir) (hr : SaveRun out base edges im d0 d1) :
    ∃ rows read, d1 (spectraName out base) = some (.spectra rows) ∧
      readTable? "shutter_time,counts".toList spectrumRow? (spectraText rows) = some read ∧ read.length = n ∧
      ∀ i img, im[i]? = some img → ∃ q t c, edges[i + 1]? = some (.fin q) ∧ read[i]? = some (t, c) ∧
        SixSignificant q t ∧ c = imageSum img := by
  obtain ⟨rows, h1, h2, h3⟩ := c40_last_save hd out base edges im hs he d0 d1 hr
  have hrows : ∀ r ∈ rows, ∃ q, r.1 = .fin q := by
    intro r hr
    obtain ⟨i, hi, e⟩ := List.getElem_of_mem hr
    have hlt : i < im.length := by rw [hs.len]; omega
    obtain ⟨up, c, g1, g2, g3⟩ := h3 i _ (List.getElem?_eq_getElem hlt)
    rw [List.getElem?_eq_getElem hi, e] at g2
    injection g2 with g2
    rw [g2]
    exact hfin _ (List.mem_of_getElem? g1)
  obtain ⟨read, r1, r2, r3⟩ := c77_spectrum rows hrows
  refine ⟨rows, read, h1, r1, by omega, ?_⟩
  intro i img hi
  obtain ⟨up, c, g1, g2, g3⟩ := h3 i img hi
  obtain ⟨q, t, k1, k2, k3, -⟩ := r3 i _ g2
  simp only at k1 k2
  exact ⟨q, t, c.toNat, by rw [g1, k1], k2, k3, g3⟩

/-- Two rows of a spectrum, as text and as read. -/
example : spectraText [(.fin (1 / 90), 12#64), (.fin 1234567, 0#64)] = "shutter_time,counts\n0.0111111,12\n1.23457e+06,0\n".toList ∧
    readTable? "shutter_time,counts".toList spectrumRow? "shutter_time,counts\n0.0111111,12\n1.23457e+06,0\n".toList =
      some [(111111 / 10000000, 12), (1234570, 0)] := by
  decide +kernel

/-- C77: a reader of the CSV file gets exactly the records. -/
theorem c77_gdc (rs : List GdcRecord) :
    readTable? "chip_id,gdc_value,file_offset,timestamp_ns".toList gdcRow? (gdcText rs) = some (rs.map GdcRecord.csv) := by
  have hint : ∀ (c : Char) (n : Int), c.isDigit = false → c ≠ '-' → c ∉ intText n := by
    intro c n hc hm
    unfold intText
    split_ifs
    · rw [List.mem_cons, not_or]
      exact ⟨hm, not_mem_digits hc (natText_digits _)⟩
    · exact not_mem_digits hc (natText_digits _)
  have hnat : ∀ (c : Char) (n : Nat), c.isDigit = false → c ∉ natText n := fun c n hc => not_mem_digits hc (natText_digits n)
  have h := readTable_rows "chip_id,gdc_value,file_offset,timestamp_ns".toList gdcRow?
    (fun r : GdcRecord => intText r.chip ++ ',' :: natText r.value.toNat ++ ',' :: natText r.offset ++
      ',' :: natText (r.value * 25#64).toNat) GdcRecord.csv rs (by decide)
    (by
      intro r _ h
      simp only [List.mem_append, List.mem_cons] at h
      rcases h with ((h | h | h) | h | h) | h | h
      · exact hint _ _ (by decide) (by decide) h
      · simp at h
      · exact hnat _ _ (by decide) h
      · simp at h
      · exact hnat _ _ (by decide) h
      · simp at h
      · exact hnat _ _ (by decide) h)
    (by
      intro r _
      have e : intText r.chip ++ ',' :: natText r.value.toNat ++ ',' :: natText r.offset ++
          ',' :: natText (r.value * 25#64).toNat = intText r.chip ++ ',' :: (natText r.value.toNat ++ ',' ::
            (natText r.offset ++ ',' :: natText (r.value * 25#64).toNat)) := by simp
      rw [e, fields_append _ (hint _ _ (by decide) (by decide)), fields_append _ (hnat _ _ (by decide)),
        fields_append _ (hnat _ _ (by decide)), fields_single (hnat _ _ (by decide))]
      simp only [gdcRow?]
      rw [readInt_intText, readNat_natText, readNat_natText, readNat_natText]
      rfl)
  rw [← h]
  rfl

/-- C77: the whole way from the words of a file to what a reader of the CSV file gets: chip, time in ticks, offset, and the
time in nanoseconds. -/
theorem c77_gdc_file (ds : List Bytes) (hal : ∀ d ∈ ds.dropLast, d.length % 8 = 0) :
    ∃ rs, GdcProc.new.processChunks ds 0 = .ok rs ∧
      readTable? "chip_id,gdc_value,file_offset,timestamp_ns".toList gdcRow? (gdcText rs) =
        some ((recordsCut (wordsOf ds.flatten) 0 (ds.map fun d => d.length / 8)).map
          fun r => (r.1, r.2.1, r.2.2, 25 * r.2.1)) := by
  obtain ⟨rs, h1, h2⟩ := c23_records ds hal
  refine ⟨rs, h1, ?_⟩
  rw [c77_gdc, ← h2, List.map_map]
  congr 1
  apply List.map_congr_left
  intro r hr
  exact c23_csv ds hal rs h1 r hr

example : gdcText [⟨2, 0x100001234#64, 16⟩] =
    "chip_id,gdc_value,file_offset,timestamp_ns\n2,4294971956,16,107374298900\n".toList := by decide +kernel

end Verif.Props
