import Verif.Lemmas.JsonText
import Verif.Props.Config
import Verif.Props.LegacySave

/-!
# The text of configuration files (C97)
-/

namespace Verif.Props

open Verif Verif.Spec

/-! ## The reader against the grammar -/

theorem skipBom_bom (l : List Char) : skipBom (bom ++ l) = l := rfl

theorem skipBom_cases (l : List Char) : ∃ b, (b = [] ∨ b = bom) ∧ l = b ++ skipBom l := by
  unfold skipBom
  split_ifs with h
  · obtain ⟨s, rfl⟩ := List.isPrefixOf_iff_prefix.1 h
    exact ⟨bom, Or.inr rfl, rfl⟩
  · exact ⟨[], Or.inl rfl, rfl⟩

/-- The first character of a value is an ASCII character. -/
theorem value_ascii {t : List Char} {j : Json} (h : Parses t (.value j)) : ∃ c r, t = c :: r ∧ c.toNat < 128 := by
  cases h with
  | null => exact ⟨'n', "ull".toList, rfl, by decide⟩
  | true => exact ⟨'t', "rue".toList, rfl, by decide⟩
  | false => exact ⟨'f', "alse".toList, rfl, by decide⟩
  | number h =>
    obtain ⟨c, r, rfl, hc⟩ := number_head h
    refine ⟨c, r, rfl, ?_⟩
    rcases hc with rfl | hc
    · decide
    · have : c.toNat ≤ 57 := hc.2
      omega
  | string _ => exact ⟨'"', _, rfl, by decide⟩
  | emptyArray _ => exact ⟨'[', _, rfl, by decide⟩
  | array _ => exact ⟨'[', _, rfl, by decide⟩
  | emptyObject _ => exact ⟨'{', _, rfl, by decide⟩
  | object _ => exact ⟨'{', _, rfl, by decide⟩

theorem skipBom_value {w t rest : List Char} {j : Json} (hw : Space w) (h : Parses t (.value j)) :
    skipBom (w ++ (t ++ rest)) = w ++ (t ++ rest) := by
  have hh : ∀ c r, c.toNat < 128 → skipBom (c :: r) = c :: r := by
    intro c r hc
    unfold skipBom
    rw [if_neg]
    intro hp
    obtain ⟨s, e⟩ := List.isPrefixOf_iff_prefix.1 hp
    simp only [List.cons_append] at e
    injection e with e _
    have h1 := congrArg Char.toNat e
    rw [toNat_ofNat (by omega)] at h1
    omega
  cases w with
  | nil =>
    obtain ⟨c, r, rfl, hc⟩ := value_ascii h
    exact hh c _ hc
  | cons c w =>
    refine hh c _ ?_
    rcases hw c (by simp) with rfl | rfl | rfl | rfl <;> decide

theorem parseValue_text {b w t rest : List Char} {j : Json} (hb : b = [] ∨ b = bom) (hw : Space w)
    (h : Parses t (.value j)) (hn : IsNum j → EndsNumber rest) :
    parseValue ((b ++ (w ++ (t ++ rest))).length + 1) (skipSpace (skipBom (b ++ (w ++ (t ++ rest))))) = some (j, rest) := by
  have hs : skipBom (b ++ (w ++ (t ++ rest))) = w ++ (t ++ rest) := by
    rcases hb with hb | hb
    · rw [hb, List.nil_append]; exact skipBom_value hw h
    · rw [hb]; exact skipBom_bom _
  rw [hs, skip_value h hw]
  exact reads_of_parses h _ _ (by simp only [List.length_append]; omega) hn

/-- C97: a value with white space (and a byte order mark) before it is read, whatever follows it.  What follows a number
must not look like more of it. -/
theorem c97_reads (b w t rest : List Char) (j : Json) (hb : b = [] ∨ b = bom) (hw : Space w) (h : Parses t (.value j))
    (hn : (∃ l, j = .obj l) ∨ (∃ l, j = .arr l) ∨ EndsNumber rest) : readJson (b ++ w ++ t ++ rest) = some j := by
  unfold readJson
  simp only [List.append_assoc]
  rw [parseValue_text hb hw h]
  · rfl
  · intro hj
    rcases hn with ⟨l, rfl⟩ | ⟨l, rfl⟩ | hn
    · exact hj.elim
    · exact hj.elim
    · exact hn

/-- C97: only that is read. -/
theorem c97_only (text : List Char) (j : Json) (h : readJson text = some j) :
    ∃ b w t rest, text = b ++ w ++ t ++ rest ∧ (b = [] ∨ b = bom) ∧ Space w ∧ Parses t (.value j) := by
  unfold readJson at h
  simp only [Option.map_eq_some_iff] at h
  obtain ⟨⟨j', rest⟩, h, rfl⟩ := h
  obtain ⟨b, hb, eb⟩ := skipBom_cases text
  obtain ⟨w, hw, ew⟩ := skipSpace_split (skipBom text)
  obtain ⟨t, et, ht⟩ := parseValue_sound _ _ _ _ h
  rw [et] at ew
  rw [ew] at eb
  exact ⟨b, w, t, rest, by rw [eb]; simp only [List.append_assoc], hb, hw, ht⟩

/-- C97: an object is read from a text exactly if the text starts with it. -/
theorem c97_object (text : List Char) (l : List (String × Json)) : readJson text = some (.obj l) ↔
    ∃ b w t rest, text = b ++ w ++ t ++ rest ∧ (b = [] ∨ b = bom) ∧ Space w ∧ Parses t (.value (.obj l)) := by
  constructor
  · exact c97_only text _
  · rintro ⟨b, w, t, rest, rfl, hb, hw, ht⟩
    exact c97_reads b w t rest _ hb hw ht (Or.inl ⟨l, rfl⟩)

theorem endsNumber_of_space {v : List Char} (hv : Space v) : EndsNumber v := by
  intro d hd
  cases v with
  | nil => cases hd
  | cons e v =>
    simp only [List.head?_cons, Option.mem_some_iff] at hd
    subst hd
    rcases hv e (by simp) with rfl | rfl | rfl | rfl <;> exact ⟨by decide, by decide, by decide, by decide⟩

/-- C97: every text of the standard is read with its value. -/
theorem c97_standard (text : List Char) (j : Json) (h : IsJson text j) : readJson text = some j := by
  obtain ⟨w, t, v, rfl, hw, hv, ht⟩ := h
  exact c97_reads [] w t v j (Or.inl rfl) hw ht (Or.inr (Or.inr (endsNumber_of_space hv)))

/-- The grammar is unambiguous. -/
theorem c97_unambiguous (text : List Char) (j j' : Json) (h : IsJson text j) (h' : IsJson text j') : j = j' := by
  have := (c97_standard text j h).symm.trans (c97_standard text j' h')
  injection this

/-- C97, read strictly, is false: text after the value is not looked at.  Every text that starts with an object or an
array and goes on with anything but white space is read, although it is no JSON text. -/
theorem c97_false_trailing (w t rest : List Char) (j : Json) (hw : Space w) (h : Parses t (.value j))
    (hj : (∃ l, j = .obj l) ∨ ∃ l, j = .arr l) (hr : ¬ Space rest) :
    readJson (w ++ t ++ rest) = some j ∧ ¬ ∃ j', IsJson (w ++ t ++ rest) j' := by
  have hn : IsNum j → EndsNumber rest := by
    rcases hj with ⟨l, rfl⟩ | ⟨l, rfl⟩ <;> exact fun h => h.elim
  have h1 := parseValue_text (Or.inl rfl) hw h hn
  refine ⟨?_, ?_⟩
  · unfold readJson
    simp only [List.nil_append, ← List.append_assoc] at h1
    rw [h1]; rfl
  · rintro ⟨j', w', t', v', e, hw', hv', ht'⟩
    have h2 := parseValue_text (b := []) (Or.inl rfl) hw' ht' (fun _ => endsNumber_of_space hv')
    simp only [List.nil_append, ← List.append_assoc] at h1 h2
    rw [← e, h1] at h2
    injection h2 with h2
    injection h2 with _ h2
    exact hr (h2 ▸ hv')

/-- C97: of members of the same name the last one counts. -/
theorem c97_last (l : List (String × Json)) (k : String) :
    (latest l).lookup k = ((l.filter (fun p => p.1 = k)).getLast?).map (·.2) := by
  induction l with
  | nil => rfl
  | cons p ps ih =>
    have hex : p.1 = k → (p.1 ∈ ps.map (·.1) ↔ ps.filter (fun p => p.1 = k) ≠ []) := by
      intro e
      rw [e]
      simp only [List.mem_map, ne_eq, List.filter_eq_nil_iff, decide_eq_true_eq, not_forall, not_not]
      constructor
      · rintro ⟨a, h1, h2⟩; exact ⟨a, h1, h2⟩
      · rintro ⟨a, h1, h2⟩; exact ⟨a, h1, h2⟩
    simp only [latest]
    by_cases hk : p.1 = k
    · rw [List.filter_cons_of_pos (by simpa using hk)]
      by_cases hm : p.1 ∈ ps.map (·.1)
      · rw [if_pos hm, ih]
        obtain ⟨x, xs, e⟩ := List.exists_cons_of_ne_nil ((hex hk).1 hm)
        rw [e, List.getLast?_cons_cons]
      · rw [if_neg hm]
        have : ps.filter (fun p => p.1 = k) = [] := by
          by_contra h; exact hm ((hex hk).2 h)
        rw [this]
        obtain ⟨a, b⟩ := p
        simp only at hk
        simp [hk]
    · rw [List.filter_cons_of_neg (by simpa using hk), ← ih]
      split_ifs with hm
      · rfl
      · obtain ⟨a, b⟩ := p
        simp only at hk
        have : (k == a) = false := by simpa using fun h => hk h.symm
        rw [List.lookup_cons, this]

/-! ## Settings -/

/-- C97: a JSON text is given to the configuration as its value, by both programs. -/
theorem c97_settings (fs : Path → ConfigFile) (p : Path) (text : List Char) (j : Json) (hp : fs p = .text text)
    (hj : IsJson text j) (hne : p ≠ []) :
    reducerSettings fs p = (JsonConfig.make j).bind JsonConfig.settings ∧
    (extensionOf p = ".json".toList → cliSettings fs p = (JsonConfig.make j).bind JsonConfig.settings) := by
  have hf : JsonConfig.fromFile (fs p) = JsonConfig.make j := by
    rw [hp]; simp only [JsonConfig.fromFile]; rw [c97_standard text j hj]
  refine ⟨?_, ?_⟩
  · unfold reducerSettings
    rw [if_neg hne, hf]
  · intro he
    unfold cliSettings
    rw [if_neg hne, if_pos he, hf]

/-- A file without a JSON value stops both programs. -/
theorem c97_invalid (fs : Path → ConfigFile) (p : Path) (text : List Char) (hp : fs p = .text text) (hne : p ≠ [])
    (hj : ¬ ∃ b w t rest j, text = b ++ w ++ t ++ rest ∧ (b = [] ∨ b = bom) ∧ Space w ∧ Parses t (.value j)) :
    (∃ e, reducerSettings fs p = .throws e) ∧ (extensionOf p = ".json".toList → ∃ e, cliSettings fs p = .throws e) := by
  have hr : readJson text = none := by
    cases h : readJson text with
    | none => rfl
    | some j =>
      obtain ⟨b, w, t, rest, h1, h2, h3, h4⟩ := c97_only text j h
      exact absurd ⟨b, w, t, rest, j, h1, h2, h3, h4⟩ hj
  have hf : JsonConfig.fromFile (fs p) = .throws "Error parsing JSON file" := by
    rw [hp]; simp only [JsonConfig.fromFile]; rw [hr]
  refine ⟨⟨"Error parsing JSON file", ?_⟩, fun he => ⟨"Error parsing JSON file", ?_⟩⟩
  · unfold reducerSettings
    rw [if_neg hne, hf]; rfl
  · unfold cliSettings
    rw [if_neg hne, if_pos he, hf]; rfl

theorem settings_not_object (j : Json) (hj : ¬ ∃ l, j = .obj l) : ∃ e, (JsonConfig.make j).bind JsonConfig.settings = .throws e := by
  have hv : j.value ["abs", "radius"] Json.asDouble (F64.ofRat 5) = .throws "type_error.306" := by
    unfold Json.value
    cases j with
    | obj l => exact absurd ⟨l, rfl⟩ hj
    | _ => rfl
  have hm : ∃ b, JsonConfig.make j = .ok ⟨j, b⟩ := by
    unfold JsonConfig.make parseTofBinning
    cases j with
    | obj l => exact absurd ⟨l, rfl⟩ hj
    | _ => exact ⟨_, rfl⟩
  obtain ⟨b, hm⟩ := hm
  refine ⟨"type_error.306", ?_⟩
  rw [hm]
  simp only [Res.bind, JsonConfig.settings, JsonConfig.radius, bind]
  rw [hv]

/-- A JSON value that is no object stops both programs. -/
theorem c97_not_object (fs : Path → ConfigFile) (p : Path) (text : List Char) (j : Json) (hp : fs p = .text text)
    (hj : IsJson text j) (hne : p ≠ []) (ho : ¬ ∃ l, j = .obj l) :
    (∃ e, reducerSettings fs p = .throws e) ∧ (extensionOf p = ".json".toList → ∃ e, cliSettings fs p = .throws e) := by
  obtain ⟨h1, h2⟩ := c97_settings fs p text j hp hj hne
  obtain ⟨e, he⟩ := settings_not_object j ho
  exact ⟨⟨e, by rw [h1, he]⟩, fun hx => ⟨e, by rw [h2 hx, he]⟩⟩

/-- The settings of the scalar getters. -/
theorem settings_of_given (j : Json) (hw : WellFormed j) (b : TofBinning) (r s : F64) (m t : U64)
    (hr : Given j ["abs", "radius"] IsDouble (.fin 5) r) (hm : Given j ["abs", "min_cluster_size"] IsCount 1#64 m)
    (ht : Given j ["abs", "spider_time_range"] IsCount 75#64 t)
    (hs : Given j ["tof_imaging", "super_resolution"] IsDouble (.fin 1) s) :
    JsonConfig.settings ⟨j, b⟩ = .ok ⟨⟨r, m.toNat, t.toNat⟩, s, JsonConfig.binEdges ⟨j, b⟩⟩ := by
  have d := c45_defaults j hw b
  have v := c45_values j hw b
  have e1 : JsonConfig.radius ⟨j, b⟩ = .ok r := by
    unfold Given at hr
    split at hr
    · rename_i h; rw [hr]; exact d.1 h
    · rename_i x h; exact v.1 x r h hr
  have e2 : JsonConfig.minClusterSize ⟨j, b⟩ = .ok m := by
    unfold Given at hm
    split at hm
    · rename_i h; rw [hm]; exact d.2.1 h
    · rename_i x h; exact v.2.1 m (by rw [h, show x = .uint m from hm])
  have e3 : JsonConfig.spiderTimeRange ⟨j, b⟩ = .ok t := by
    unfold Given at ht
    split at ht
    · rename_i h; rw [ht]; exact d.2.2.1 h
    · rename_i x h; exact v.2.2.1 t (by rw [h, show x = .uint t from ht])
  have e4 : JsonConfig.superResolution ⟨j, b⟩ = .ok s := by
    unfold Given at hs
    split at hs
    · rename_i h; rw [hs]; exact d.2.2.2 h
    · rename_i x h; exact v.2.2.2 x s h hs
  simp only [JsonConfig.settings, bind]
  rw [e1]; simp only [Res.bind]
  rw [e2]; simp only
  rw [e3]; simp only
  rw [e4]

/-- C97, from the text to the settings: each scalar setting has the value that the text gives it, or its default; the bin
edges are the explicit ones, or uniform.
Missing: an empty list of edges (`c45_false_empty_edges`). -/
theorem c97_values_partial (fs : Path → ConfigFile) (p : Path) (text : List Char) (j : Json) (hp : fs p = .text text)
    (hj : IsJson text j) (hne : p ≠ []) (hw : WellFormed j) (r s : F64) (m t : U64)
    (hr : Given j ["abs", "radius"] IsDouble (.fin 5) r) (hm : Given j ["abs", "min_cluster_size"] IsCount 1#64 m)
    (ht : Given j ["abs", "spider_time_range"] IsCount 75#64 t)
    (hs : Given j ["tof_imaging", "super_resolution"] IsDouble (.fin 1) s) :
    (∀ vs xs, memberAt j ["tof_imaging", "bin_edges"] = some (.arr vs) → List.Forall₂ IsDouble vs xs → vs ≠ [] →
      reducerSettings fs p = .ok ⟨⟨r, m.toNat, t.toNat⟩, s, .ok xs⟩ ∧
      (extensionOf p = ".json".toList → cliSettings fs p = .ok ⟨⟨r, m.toNat, t.toNat⟩, s, .ok xs⟩)) ∧
    (∀ u n x, memberAt j ["tof_imaging", "bin_edges"] = none →
      memberAt j ["tof_imaging", "uniform_bins"] = some (.obj u) → n < 2 ^ 31 - 1 →
      ((u.lookup "num_bins" = none ∧ n = 1500) ∨ u.lookup "num_bins" = some (.uint (BitVec.ofNat 64 n))) →
      ((u.lookup "end" = none ∧ x = F64.ofRat (167 / 10000)) ∨ ∃ v, u.lookup "end" = some v ∧ IsDouble v x) →
      ∃ edges, UniformEdges n x edges ∧ reducerSettings fs p = .ok ⟨⟨r, m.toNat, t.toNat⟩, s, .ok edges⟩ ∧
      (extensionOf p = ".json".toList → cliSettings fs p = .ok ⟨⟨r, m.toNat, t.toNat⟩, s, .ok edges⟩)) ∧
    (memberAt j ["tof_imaging", "bin_edges"] = none → memberAt j ["tof_imaging", "uniform_bins"] = none →
      ∃ edges, UniformEdges 1500 (F64.ofRat (167 / 10000)) edges ∧
      reducerSettings fs p = .ok ⟨⟨r, m.toNat, t.toNat⟩, s, .ok edges⟩ ∧
      (extensionOf p = ".json".toList → cliSettings fs p = .ok ⟨⟨r, m.toNat, t.toNat⟩, s, .ok edges⟩)) := by
  obtain ⟨h1, h2⟩ := c97_settings fs p text j hp hj hne
  have key : ∀ c edges, JsonConfig.make j = .ok c → c.root = j → c.binEdges = .ok edges →
      reducerSettings fs p = .ok ⟨⟨r, m.toNat, t.toNat⟩, s, .ok edges⟩ ∧
      (extensionOf p = ".json".toList → cliSettings fs p = .ok ⟨⟨r, m.toNat, t.toNat⟩, s, .ok edges⟩) := by
    rintro ⟨root, b⟩ edges hc rfl he
    have : (JsonConfig.make root).bind JsonConfig.settings = .ok ⟨⟨r, m.toNat, t.toNat⟩, s, .ok edges⟩ := by
      rw [hc]
      simp only [Res.bind]
      rw [settings_of_given root hw b r s m t hr hm ht hs, he]
    exact ⟨h1.trans this, fun hx => (h2 hx).trans this⟩
  refine ⟨?_, ?_, ?_⟩
  · intro vs xs a1 a2 a3
    obtain ⟨c, b1, b2, b3⟩ := c45_edges_partial j hw vs xs a1 a2 a3
    exact key c xs b1 b2 b3
  · intro u n x a1 a2 a3 a4 a5
    obtain ⟨c, edges, b1, b2, b3, b4⟩ := c45_uniform j hw u a1 a2 n a3 x a4 a5
    exact ⟨edges, b4, key c edges b1 b2 b3⟩
  · intro a1 a2
    obtain ⟨c, edges, b1, b2, b3, b4⟩ := c45_default_bins j hw a1 a2
    exact ⟨edges, b4, key c edges b1 b2 b3⟩

/-! ## Which format -/

theorem splitDir_name (dir name : Path) (hd : dir = [] ∨ ∃ d, dir = d ++ ['/']) (hn : '/' ∉ name) :
    splitDir (dir ++ name) = (dir, name) := by
  have hall : ∀ c ∈ name.reverse, decide (c ≠ '/') = true := by
    intro c hc
    simp only [ne_eq, decide_not, Bool.not_eq_eq_eq_not, Bool.not_true, decide_eq_false_iff_not]
    rintro rfl
    exact hn (List.mem_reverse.1 hc)
  unfold splitDir
  rw [List.reverse_append]
  rcases hd with rfl | ⟨d, rfl⟩
  · rw [List.reverse_nil, List.append_nil, List.takeWhile_eq_self_iff.2 hall, List.dropWhile_eq_nil_iff.2 hall]
    simp
  · rw [List.reverse_append, List.reverse_singleton, List.takeWhile_append_of_pos hall, List.dropWhile_append_of_pos hall]
    simp

/-- C97: the extension of a path is what follows the last point of its last component. -/
theorem c97_extension (p ext : List Char) (h : HasExtension p ext) : extensionOf p = '.' :: ext := by
  obtain ⟨dir, name, rfl, hd, hn, hne, he, hp, hdd⟩ := h
  have h1 : splitDir (dir ++ name ++ '.' :: ext) = (dir, name ++ '.' :: ext) := by
    rw [List.append_assoc]
    refine splitDir_name dir _ hd ?_
    simp only [List.mem_append, List.mem_cons, not_or]
    exact ⟨hn, by decide, he⟩
  have hall : ∀ c ∈ ext.reverse, decide (c ≠ '.') = true := by
    intro c hc
    simp only [ne_eq, decide_not, Bool.not_eq_eq_eq_not, Bool.not_true, decide_eq_false_iff_not]
    rintro rfl
    exact hp (List.mem_reverse.1 hc)
  unfold extensionOf splitExt
  rw [h1]
  simp only [List.reverse_append, List.reverse_cons, List.append_assoc, List.cons_append, List.nil_append]
  rw [List.takeWhile_append_of_pos hall, List.dropWhile_append_of_pos hall]
  simp only [ne_eq, List.takeWhile_cons, List.dropWhile_cons]
  rw [if_neg]
  · simp
  · simp only [not_or]
    refine ⟨by simp, by simpa using hne, ?_⟩
    intro e
    cases name with
    | nil => exact hne rfl
    | cons a name =>
      simp only [List.cons_append, List.cons.injEq] at e
      obtain ⟨rfl, e⟩ := e
      cases name with
      | nil =>
        simp only [List.nil_append, List.cons.injEq, true_and] at e
        exact hdd ⟨rfl, e⟩
      | cons b name =>
        simp only [List.cons_append, List.cons.injEq] at e
        simp at e

/-- C97: a file with any other extension is read in the old format by the command-line program.  Each setting has the
value of its last line, or its default; the bins are always 1500 up to 1/60 s.
Missing: lines that are not of the format (`c46_false_missing`). -/
theorem c97_old_format_partial (fs : Path → ConfigFile) (p : Path) (text : List Char) (ls : List (List Char))
    (hp : fs p = .text text) (hl : HasLines text ls) (h : ∀ l ∈ ls, GoodLine l) (hne : p ≠ [])
    (he : extensionOf p ≠ ".json".toList) :
    ∃ r m t edges, cliSettings fs p = .ok ⟨⟨r, m.toNat, t.toNat⟩, .fin 1, .ok edges⟩ ∧
      LastValue GivesRadius (.fin 5) ls r ∧ LastValue (GivesCount "abs_min_cluster_size") 1#64 ls m ∧
      LastValue (GivesCount "spider_time_range") 75#64 ls t ∧ UniformEdges 1500 (F64.ofRat (1 / 60)) edges := by
  obtain ⟨c, h1, h2, h3, h4⟩ := c46_last_partial ls h
  have hrest : ∀ (ls : List (List Char)) (c c' : UserConfig), userLines c ls = .ok c' →
      c'.binning = c.binning ∧ c'.superResolution = c.superResolution := by
    intro ls
    induction ls with
    | nil => intro c c' h; simp only [userLines] at h; injection h with h; rw [h]; exact ⟨rfl, rfl⟩
    | cons l ls ih =>
      intro c c' h
      simp only [userLines] at h
      cases hu : userLine c l with
      | ub u => rw [hu] at h; cases h
      | throws e => rw [hu] at h; cases h
      | ok d =>
        rw [hu] at h
        obtain ⟨a1, a2⟩ := ih d c' h
        have hd : d.binning = c.binning ∧ d.superResolution = c.superResolution := by
          unfold userLine at hu
          simp only at hu
          split_ifs at hu
          · injection hu with hu; rw [← hu]; exact ⟨rfl, rfl⟩
          · split at hu
            · injection hu with hu; rw [← hu]; exact ⟨rfl, rfl⟩
            · cases hu
          · split at hu
            · injection hu with hu; rw [← hu]; exact ⟨rfl, rfl⟩
            · cases hu
          · split at hu
            · injection hu with hu; rw [← hu]; exact ⟨rfl, rfl⟩
            · cases hu
          · injection hu with hu; rw [← hu]; exact ⟨rfl, rfl⟩
        exact ⟨a1.trans hd.1, a2.trans hd.2⟩
  obtain ⟨e1, e2⟩ := hrest _ _ _ h1
  obtain ⟨edges, e3, e4⟩ := getBinEdges_edges UserConfig.default.binning 1500 (F64.ofRat (1 / 60)) rfl (by omega) rfl rfl
  refine ⟨c.radius, c.minClusterSize, c.spiderTimeRange, edges, ?_, h2, h3, h4, e4⟩
  unfold cliSettings
  rw [if_neg hne, if_neg he, hp]
  simp only [UserConfig.fromFile]
  rw [getLines_eq hl, h1]
  simp only [Res.bind, UserConfig.settings]
  rw [e1, e2, e3]
  have : UserConfig.default.superResolution = .fin 1 := ofRat1
  rw [this]

/-- Files that are not there, or cannot be read. -/
theorem c97_missing (fs : Path → ConfigFile) (p : Path) (hne : p ≠ []) :
    (fs p = .missing → (∃ e, cliSettings fs p = .throws e) ∧ ∃ e, reducerSettings fs p = .throws e) ∧
    (fs p = .unreadable → (∃ e, reducerSettings fs p = .throws e) ∧
      (extensionOf p = ".json".toList → ∃ e, cliSettings fs p = .throws e) ∧
      (extensionOf p ≠ ".json".toList → cliSettings fs p = .ok UserConfig.default.settings)) := by
  refine ⟨fun h => ⟨?_, ?_⟩, fun h => ⟨?_, ?_, ?_⟩⟩
  · unfold cliSettings
    rw [if_neg hne, h]
    split_ifs
    · exact ⟨_, rfl⟩
    · exact ⟨_, rfl⟩
  · unfold reducerSettings
    rw [if_neg hne, h]
    exact ⟨_, rfl⟩
  · unfold reducerSettings
    rw [if_neg hne, h]
    exact ⟨_, rfl⟩
  · intro he
    unfold cliSettings
    rw [if_neg hne, if_pos he, h]
    exact ⟨_, rfl⟩
  · intro he
    unfold cliSettings
    rw [if_neg hne, if_neg he, h]
    rfl

/-- C97: an empty object gives the same settings as no configuration at all. -/
theorem c97_empty_object (fs fs' : Path → ConfigFile) (p : Path) (text : List Char) (hp : fs p = .text text)
    (hj : IsJson text (.obj [])) (hne : p ≠ []) :
    reducerSettings fs p = reducerSettings fs' [] ∧ reducerSettings fs p = cliSettings fs' [] := by
  obtain ⟨h1, -⟩ := c97_settings fs p text _ hp hj hne
  have : (JsonConfig.make (.obj [])).bind JsonConfig.settings = JsonConfig.createDefault.bind JsonConfig.settings := by
    rfl
  rw [h1, this]
  exact ⟨rfl, rfl⟩

/-- C97: when the command-line program returns 0, it had no configuration file, or a JSON file that starts with an object,
or a file in the old format. -/
theorem c97_main (argv : List Arg) (fs : Path → ConfigFile) (solve : List GaussRow → F64 × F64)
    (input : Path → Option Bytes) (fl : Nat → BatchFaults) (o : ProgramOptions) (w : Outputs) (d d' : Dir)
    (h : MainReturnsZero argv (cliSettings fs) solve input fl o w d d') :
    o.configFile = [] ∨
    (extensionOf o.configFile = ".json".toList ∧ ∃ b w t rest l, fs o.configFile = .text (b ++ w ++ t ++ rest) ∧
      (b = [] ∨ b = bom) ∧ Space w ∧ Parses t (.value (.obj l))) ∨
    (extensionOf o.configFile ≠ ".json".toList ∧ fs o.configFile ≠ .missing) := by
  obtain ⟨s, file, fuel, -, hs, -⟩ := h
  by_cases h0 : o.configFile = []
  · exact Or.inl h0
  refine Or.inr ?_
  by_cases he : extensionOf o.configFile = ".json".toList
  · refine Or.inl ⟨he, ?_⟩
    unfold cliSettings at hs
    rw [if_neg h0, if_pos he] at hs
    cases hf : fs o.configFile with
    | missing => rw [hf] at hs; cases hs
    | unreadable => rw [hf] at hs; cases hs
    | text l =>
      rw [hf] at hs
      simp only [JsonConfig.fromFile] at hs
      cases hr : readJson l with
      | none => rw [hr] at hs; cases hs
      | some j =>
        rw [hr] at hs
        simp only at hs
        have ho : ∃ m, j = .obj m := by
          by_contra hno
          obtain ⟨e, he⟩ := settings_not_object j hno
          rw [he] at hs
          cases hs
        obtain ⟨m, rfl⟩ := ho
        obtain ⟨b, w, t, rest, e, hb, hw, ht⟩ := c97_only l _ hr
        exact ⟨b, w, t, rest, m, by rw [e], hb, hw, ht⟩
  · refine Or.inr ⟨he, fun hm => ?_⟩
    obtain ⟨e, h1⟩ := ((c97_missing fs o.configFile h0).1 hm).1
    rw [h1] at hs
    cases hs

/-! ## Examples -/

/-- `resources/data/example_config.json`, shortened and with some oddities. -/
def exampleText : List Char := "{\"abs\": {\"radius\": 5.5, \"min_cluster_size\": 2},
  \"tof_imaging\": {\"super_resolution\": 2e0,
    \"_comment\": [\"\\\"\\u005f\\ud83d\\ude00\", -2, [ ], true]},
  \"abs\": { \"radius\": 7 , \"radius\":\t6.25}}
".toList

/-- What the reader makes of a text, as far as the settings go. -/
def settingsOf (text : List Char) : Option (F64 × Nat × Nat × F64) :=
  match cliSettings (fun _ => .text text) "c.json".toList with
  | .ok s => some (s.params.feature, s.params.minSize, s.params.range, s.sr)
  | _ => none

/-- The last section of the same name counts as a whole, and in it the last radius. -/
example : settingsOf exampleText = some (.fin (25 / 4), 1, 75, .fin 2) := by decide +kernel

/-- The text satisfies the hypotheses of `c97_object`, so by it the value is the one of the grammar. -/
example : ∃ l b w t rest, exampleText = b ++ w ++ t ++ rest ∧ (b = [] ∨ b = bom) ∧ Space w ∧ Parses t (.value (.obj l)) := by
  have h : (match readJson exampleText with | some (.obj _) => true | _ => false) = true := by decide +kernel
  cases hr : readJson exampleText with
  | none => rw [hr] at h; cases h
  | some j =>
    rw [hr] at h
    cases j with
    | obj l => exact ⟨l, (c97_object _ l).1 hr⟩
    | _ => cases h

/-- A small text of the grammar, for the hypotheses of the theorems. -/
theorem small_isJson : IsJson "{\"abs\": {\"radius\": 6.5}}\n".toList
    (.obj [("abs", .obj [("radius", .float (.fin (13 / 2)))])]) := by
  have hsp : Space [' '] := by intro c hc; simp at hc; exact Or.inl hc
  have hnil : Space [] := by intro c hc; cases hc
  have hnl : Space ['\n'] := by intro c hc; simp at hc; exact Or.inr (Or.inr (Or.inl hc))
  have hq : F64.ofRat (decimal false ['6'] ['5'] 0) = .fin (13 / 2) := by decide +kernel
  have hnum : Number "6.5".toList (.float (.fin (13 / 2))) := by
    refine Number.real (neg := false) (ip := ['6']) (fp := some ['5']) (e := none) ?_ (fun h => by cases h) hq
    refine ⟨".5".toList, [], rfl, Or.inr ⟨'6', [], rfl, by decide, by decide, by simp⟩, ⟨rfl, by simp, ?_⟩, rfl⟩
    intro d hd; simp at hd; subst hd; decide
  have plain : ∀ c : Char, 0x20 ≤ c.toNat → c.toNat < 0x80 → c.toNat ≠ 0x22 → c.toNat ≠ 0x5c → Element [c] [c] := by
    intro c h1 h2 h3 h4
    have hu : bytes (utf8 c.toNat) = [c] := by
      unfold utf8; rw [if_pos h2]; simp [bytes]
    have := Element.plain (n := c.toNat) (Or.inl (by omega)) h1 h3 h4
    rwa [hu] at this
  have word : ∀ l : List Char, (∀ c ∈ l, 0x20 ≤ c.toNat ∧ c.toNat < 0x80 ∧ c.toNat ≠ 0x22 ∧ c.toNat ≠ 0x5c) → Chars l l := by
    intro l
    induction l with
    | nil => intro _; exact Chars.nil
    | cons c l ih =>
      intro h
      obtain ⟨h1, h2, h3, h4⟩ := h c (by simp)
      exact Chars.cons (plain c h1 h2 h3 h4) (ih fun d hd => h d (by simp [hd]))
  have hin : Parses "{\"radius\": 6.5}".toList (.value (.obj [("radius", .float (.fin (13 / 2)))])) :=
    Parses.object (Parses.lastMember (w := []) (k := "radius".toList) (v := []) (u := [' ']) (x := []) hnil hnil hsp hnil
      (word _ (by decide)) (Parses.number hnum))
  have hout : Parses "{\"abs\": {\"radius\": 6.5}}".toList (.value (.obj [("abs", .obj [("radius", .float (.fin (13 / 2)))])])) :=
    Parses.object (Parses.lastMember (w := []) (k := "abs".toList) (v := []) (u := [' ']) (x := []) hnil hnil hsp hnil
      (word _ (by decide)) hin)
  exact ⟨[], _, ['\n'], rfl, hnil, hnl, hout⟩

example : reducerSettings (fun _ => .text "{\"abs\": {\"radius\": 6.5}}\n".toList) "c".toList =
    (JsonConfig.make (.obj [("abs", .obj [("radius", .float (.fin (13 / 2)))])])).bind JsonConfig.settings :=
  (c97_settings _ _ _ _ rfl small_isJson (by decide)).1

/-- A misplaced brace: the section after it is not read, and nothing is reported. -/
example : settingsOf "{\"tof_imaging\": {}}, \"abs\": {\"radius\": 6}}".toList = some (.fin 5, 1, 75, .fin 1) := by
  decide +kernel

example : ¬ Space ", \"abs\": {\"radius\": 6}}".toList := by
  intro h
  have := h ',' (by simp)
  revert this; decide

/-- Texts that are rejected: a trailing comma, a leading zero, a bare word, a control character in a string, half a
surrogate pair, bytes that are no UTF-8, a number beyond the range of doubles. -/
example : readJson "{\"abs\": {},}".toList = none ∧ readJson "[01]".toList = none ∧ readJson "{abs: 1}".toList = none ∧
    readJson "[\"a\nb\"]".toList = none ∧ readJson "[\"\\ud800\"]".toList = none ∧
    readJson ("[\"".toList ++ [Char.ofNat 0xc0, Char.ofNat 0x80] ++ "\"]".toList) = none ∧
    readJson "[1e999]".toList = none ∧ readJson [] = none := by
  have h : ∀ t : List Char, (readJson t).isNone = true → readJson t = none := fun t ht => Option.isNone_iff_eq_none.1 ht
  exact ⟨h _ (by decide +kernel), h _ (by decide +kernel), h _ (by decide +kernel), h _ (by decide +kernel),
    h _ (by decide +kernel), h _ (by decide +kernel), h _ (by decide +kernel), h _ (by decide +kernel)⟩

/-- C97: a JSON file with another extension is not read as JSON by the command-line program: the settings are the old
defaults, whatever the file says. -/
theorem c97_false_extension : HasExtension "run.JSON".toList "JSON".toList ∧
    IsJson "{\"abs\": {\"radius\": 6.5}}\n".toList (.obj [("abs", .obj [("radius", .float (.fin (13 / 2)))])]) ∧
    cliSettings (fun _ => .text "{\"abs\": {\"radius\": 6.5}}\n".toList) "run.JSON".toList =
      .ok UserConfig.default.settings := by
  refine ⟨⟨[], "run".toList, rfl, Or.inl rfl, by decide, by decide, by decide, by decide, by decide⟩, small_isJson, ?_⟩
  have he : extensionOf "run.JSON".toList ≠ ".json".toList := by decide
  unfold cliSettings
  rw [if_neg (by decide), if_neg he]
  have hl : getLines "{\"abs\": {\"radius\": 6.5}}\n".toList = ["{\"abs\": {\"radius\": 6.5}}".toList] := by decide +kernel
  simp only [UserConfig.fromFile]
  rw [hl]
  rfl

/-- The automatic reducer does not read the old format: a text that starts like `abs_radius` or `spider_time_range`, or with
a comment, stops it. -/
theorem c97_false_reducer_old (fs : Path → ConfigFile) (p : Path) (a : Char) (rest : List Char)
    (ha : a = 'a' ∨ a = 's' ∨ a = '#') (hp : fs p = .text (a :: rest)) (hne : p ≠ []) : ∃ e, reducerSettings fs p = .throws e := by
  refine (c97_invalid fs p _ hp hne ?_).1
  rintro ⟨b, w, t, r, j, e, hb, hw, ht⟩
  have hb' : b = [] := by
    rcases hb with hb | hb
    · exact hb
    · rw [hb] at e
      simp only [List.append_assoc] at e
      injection e with e _
      rcases ha with rfl | rfl | rfl <;> exact absurd e (by decide)
  rw [hb', List.nil_append] at e
  cases w with
  | cons c w =>
    injection e with e _
    rw [← e] at hw
    have := hw a (by simp)
    rcases ha with rfl | rfl | rfl <;> revert this <;> decide
  | nil =>
    rw [List.nil_append] at e
    have hv := reads_of_parses ht (t.length + 1) [] (by omega) (fun _ c hc => by cases hc)
    obtain ⟨c, u, rfl, -⟩ := value_head ht
    injection e with e _
    rw [← e] at hv
    rcases ha with rfl | rfl | rfl <;> cases hv

example : HasExtension "/data/conf.d/run_1.json".toList "json".toList :=
  ⟨"/data/conf.d/".toList, "run_1".toList, rfl, Or.inr ⟨"/data/conf.d".toList, rfl⟩, by decide, by decide, by decide, by decide,
    by decide⟩

end Verif.Props
