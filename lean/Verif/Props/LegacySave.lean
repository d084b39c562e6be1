import Mathlib.Data.List.TakeWhile
import Verif.Props.Config
import Verif.Props.H5
import Verif.Props.LegacyAbs
import Verif.Props.StreamCli
import Verif.Spec.LegacySave

/-!
# Parameters and output of the legacy library (C81, C82)
-/

namespace Verif.Props

open Verif Verif.Spec

/-! ## C81: the parameter file -/

theorem getLines_line (l t : List Char) (h : '\n' ∉ l) : getLines (l ++ '\n' :: t) = l :: getLines t := by
  induction l with
  | nil => simp [getLines]
  | cons c l ih =>
    have hc : c ≠ '\n' := fun e => h (by simp [e])
    rw [List.cons_append, getLines, if_neg hc, ih (fun hm => h (by simp [hm]))]

theorem getLines_last (l : List Char) (h : '\n' ∉ l) (hne : l ≠ []) : getLines l = [l] := by
  induction l with
  | nil => exact absurd rfl hne
  | cons c l ih =>
    have hc : c ≠ '\n' := fun e => h (by simp [e])
    rw [getLines, if_neg hc]
    cases l with
    | nil => rfl
    | cons d l => rw [ih (fun hm => h (by simp [hm])) (by simp)]

theorem getLines_append (ls : List (List Char)) (t : List Char) (h : ∀ l ∈ ls, '\n' ∉ l) :
    getLines ((ls.map fun l => l ++ ['\n']).flatten ++ t) = ls ++ getLines t := by
  induction ls with
  | nil => rfl
  | cons l ls ih =>
    rw [List.map_cons, List.flatten_cons, List.append_assoc, List.append_assoc, List.singleton_append,
      getLines_line _ _ (h l (by simp)), ih (fun x hx => h x (by simp [hx]))]
    rfl

theorem getLines_eq {text : List Char} {ls : List (List Char)} (h : HasLines text ls) : getLines text = ls := by
  obtain ⟨h1, h2 | ⟨init, last, rfl, hl, h2⟩⟩ := h
  · have := getLines_append ls [] h1
    rw [List.append_nil] at this
    rw [h2, this]
    simp [getLines]
  · rw [h2, getLines_append _ _ (fun l hl => h1 l (by simp [hl])), getLines_last _ (h1 last (by simp)) hl]

theorem extractU64_eq {w val tail : List Char} {n : Nat} (h1 : ∀ c ∈ w, Blank c) (h2 : ∀ c ∈ val, ¬ Blank c)
    (h3 : ∀ c ∈ tail.head?, Blank c) (hi : Integer val n) (hn : n < 2 ^ 64) :
    extractU64 (w ++ (val ++ tail)) = some (BitVec.ofNat 64 n) := by
  obtain ⟨h4, h5, h6⟩ := hi
  unfold extractU64
  rw [skip_blanks h1 h2 h4]
  have e := (takeWhile_split (p := isDigit) (a := val) (b := tail) (fun c hc => (isDigit_iff c).2 (h5 c hc))
    (fun c hc => blank_not_digit (h3 c hc))).1
  cases val with
  | nil => exact absurd rfl h4
  | cons x val =>
    simp only [List.cons_append] at e ⊢
    rw [takeSign_digit (h5 x (by simp))]
    simp only
    rw [e, digitsVal_eq, h6, if_neg (by omega)]
    rfl

theorem extractU64_neg {w d tail : List Char} {n : Nat} (h1 : ∀ c ∈ w, Blank c)
    (h3 : ∀ c ∈ tail.head?, Blank c) (hi : Integer d n) (hn : n < 2 ^ 64) :
    extractU64 (w ++ (('-' :: d) ++ tail)) = some (-BitVec.ofNat 64 n) := by
  obtain ⟨h4, h5, h6⟩ := hi
  have h2 : ∀ c ∈ '-' :: d, ¬ Blank c := by
    intro c hc hb
    rcases List.mem_cons.mp hc with rfl | hc
    · revert hb; unfold Blank; decide
    · have := blank_not_digit hb
      rw [(isDigit_iff c).2 (h5 c hc)] at this
      exact absurd this (by simp)
  unfold extractU64
  rw [skip_blanks h1 h2 (by simp)]
  have e := (takeWhile_split (p := isDigit) (a := d) (b := tail) (fun c hc => (isDigit_iff c).2 (h5 c hc))
    (fun c hc => blank_not_digit (h3 c hc))).1
  have hs : takeSign ('-' :: (d ++ tail)) = (true, d ++ tail) := rfl
  simp only [List.cons_append]
  rw [hs]
  simp only
  rw [e, digitsVal_eq, h6, if_neg (by omega)]
  rfl

theorem paramLine_radius {line : List Char} {x : F64} (h : GivesRadius line x) (p : LegacyParams) :
    legacyParamLine p line = { p with radius := x } := by
  obtain ⟨val, q, hs, hd, hq, rfl⟩ := h
  obtain ⟨w2, tail, e, h1, h2, h3, h4⟩ := Setting.firstWord hs
  unfold legacyParamLine
  rw [e]
  simp only
  rw [if_pos trivial, extractDouble_eq h1 h2 h4 hd hq]
  rfl

theorem paramLine_size {line : List Char} {x : U64} (h : GivesLong "abs_min_cluster_size" line x) (p : LegacyParams) :
    legacyParamLine p line = { p with minClusterSize := x } := by
  obtain ⟨val, n, hs, hd, hq, rfl⟩ := h
  obtain ⟨w2, tail, e, h1, h2, h3, h4⟩ := Setting.firstWord hs
  unfold legacyParamLine
  rw [e]
  simp only
  rw [if_neg (by decide), if_pos trivial, extractU64_eq h1 h2 h4 hd hq]
  rfl

theorem paramLine_range {line : List Char} {x : U64} (h : GivesLong "spider_time_range" line x) (p : LegacyParams) :
    legacyParamLine p line = { p with spiderTimeRange := x } := by
  obtain ⟨val, n, hs, hd, hq, rfl⟩ := h
  obtain ⟨w2, tail, e, h1, h2, h3, h4⟩ := Setting.firstWord hs
  unfold legacyParamLine
  rw [e]
  simp only
  rw [if_neg (by decide), if_neg (by decide), if_pos trivial, extractU64_eq h1 h2 h4 hd hq]
  rfl

theorem paramLine_neutral {line : List Char} (h : Neutral line) (p : LegacyParams) : legacyParamLine p line = p := by
  obtain ⟨name, ⟨w1, tail, hl, h1, h2, h3, h4⟩, n1, n2, n3⟩ := h
  unfold legacyParamLine
  rw [firstWord_eq hl h1 h2 h3 h4]
  simp only
  rw [if_neg n1, if_neg n2, if_neg n3]

theorem params_last (ls : List (List Char)) (h : ∀ l ∈ ls, GoodParam l) :
    LastValue GivesRadius (.fin 5) ls (ls.foldl legacyParamLine LegacyParams.default).radius ∧
    LastValue (GivesLong "abs_min_cluster_size") 1#64 ls (ls.foldl legacyParamLine LegacyParams.default).minClusterSize ∧
    LastValue (GivesLong "spider_time_range") 75#64 ls (ls.foldl legacyParamLine LegacyParams.default).spiderTimeRange := by
  induction ls using List.reverseRecOn with
  | nil =>
    refine ⟨?_, .none, .none⟩
    have : LegacyParams.default.radius = .fin 5 := ofRat5
    rw [List.foldl_nil, this]
    exact .none
  | append_singleton ls l ih =>
    obtain ⟨h2, h3, h4⟩ := ih (fun x hx => h x (by simp [hx]))
    rw [List.foldl_append, List.foldl_cons, List.foldl_nil]
    generalize ls.foldl legacyParamLine LegacyParams.default = p at h2 h3 h4
    rcases h l (by simp) with ⟨x, hx⟩ | ⟨x, hx⟩ | ⟨x, hx⟩ | hx
    · rw [paramLine_radius hx]
      refine ⟨.set hx, .skip ?_ h3, .skip ?_ h4⟩ <;>
      · rintro w ⟨_, _, hs, -⟩
        obtain ⟨_, _, hs', -⟩ := hx
        exact absurd (setting_name_unique hs hs') (by decide)
    · rw [paramLine_size hx]
      refine ⟨.skip ?_ h2, .set hx, .skip ?_ h4⟩ <;>
      · rintro w ⟨_, _, hs, -⟩
        obtain ⟨_, _, hs', -⟩ := hx
        exact absurd (setting_name_unique hs hs') (by decide)
    · rw [paramLine_range hx]
      refine ⟨.skip ?_ h2, .skip ?_ h3, .set hx⟩ <;>
      · rintro w ⟨_, _, hs, -⟩
        obtain ⟨_, _, hs', -⟩ := hx
        exact absurd (setting_name_unique hs hs') (by decide)
    · rw [paramLine_neutral hx]
      refine ⟨.skip ?_ h2, .skip ?_ h3, .skip ?_ h4⟩
      · rintro w ⟨_, _, hs, -⟩; exact (neutral_word hx hs).1 rfl
      · rintro w ⟨_, _, hs, -⟩; exact (neutral_word hx hs).2.1 rfl
      · rintro w ⟨_, _, hs, -⟩; exact (neutral_word hx hs).2.2 rfl

/-- C81: each parameter has the value of its last line in the file, or its default.
Missing: malformed values, which are taken as 0 (`c81_false_garbage`) or wrap (`c81_negative_wraps`). -/
theorem c81_last_partial (text : List Char) (ls : List (List Char)) (ht : HasLines text ls) (h : ∀ l ∈ ls, GoodParam l) :
    LastValue GivesRadius (.fin 5) ls (parseUserDefinedParams (some text)).radius ∧
    LastValue (GivesLong "abs_min_cluster_size") 1#64 ls (parseUserDefinedParams (some text)).minClusterSize ∧
    LastValue (GivesLong "spider_time_range") 75#64 ls (parseUserDefinedParams (some text)).spiderTimeRange := by
  unfold parseUserDefinedParams
  rw [Option.getD_some, getLines_eq ht]
  exact params_last ls h

/-- C81: a file that cannot be opened gives the defaults, as an empty one does; nothing is reported. -/
theorem c81_no_file : parseUserDefinedParams none = ⟨.fin 5, 1#64, 75#64⟩ ∧
    parseUserDefinedParams (some []) = ⟨.fin 5, 1#64, 75#64⟩ := by
  have h : LegacyParams.default = ⟨.fin 5, 1#64, 75#64⟩ := by unfold LegacyParams.default; rw [ofRat5]
  exact ⟨h, h⟩

/-- The second file of the project's test (resources/data/user_defined_params_1.txt). -/
def exampleParams : List Char :=
  "# ABS\nabs_radius 20.0 \t\t\t\t\t# in number of pixels\nabs_min_cluster_size 30  \t\t# in number of pixels\nspider_time_range 500000 \t\t\t# in nanoseconds".toList

theorem exampleParams_good : ∃ ls, HasLines exampleParams ls ∧ ∀ l ∈ ls, GoodParam l := by
  refine ⟨["# ABS".toList, "abs_radius 20.0 \t\t\t\t\t# in number of pixels".toList,
    "abs_min_cluster_size 30  \t\t# in number of pixels".toList,
    "spider_time_range 500000 \t\t\t# in nanoseconds".toList], ⟨by decide, .inr ?_⟩, ?_⟩
  · exact ⟨["# ABS".toList, "abs_radius 20.0 \t\t\t\t\t# in number of pixels".toList,
      "abs_min_cluster_size 30  \t\t# in number of pixels".toList], _, rfl, by decide, by decide +kernel⟩
  · intro l hl
    simp only [List.mem_cons, List.not_mem_nil, or_false] at hl
    rcases hl with rfl | rfl | rfl | rfl
    · refine .inr (.inr (.inr ⟨['#'], ⟨[], " ABS".toList, ?_⟩, ?_⟩))
      · unfold Blank; decide
      · decide
    · refine .inl ⟨_, "20.0".toList, 20, ⟨[], [' '], " \t\t\t\t\t# in number of pixels".toList, ?_⟩,
        ⟨[], ['2', '0'], ['.', '0'], ['0'], [], 0, ?_⟩, ?_, rfl⟩
      · unfold Blank; decide
      · refine ⟨by simp, by simp, by unfold Digit; decide, by unfold Digit; decide, by simp, by simp, by decide, ?_⟩
        have : numeral (['2', '0'] ++ ['0']) = 200 := by decide
        unfold decimal
        rw [this]; norm_num
      · rw [abs_of_pos (by norm_num)]
        exact le_trans (by norm_num : (20 : ℚ) ≤ 2 ^ 5) (pow_le_pow_right₀ (by norm_num) (by omega))
    · refine .inr (.inl ⟨_, "30".toList, 30, ⟨[], [' '], "  \t\t# in number of pixels".toList, ?_⟩, ⟨?_, ?_, ?_⟩, ?_, rfl⟩)
      · unfold Blank; decide
      · decide
      · unfold Digit; decide
      · decide
      · decide
    · refine .inr (.inr (.inl ⟨_, "500000".toList, 500000, ⟨[], [' '], " \t\t\t# in nanoseconds".toList, ?_⟩,
        ⟨?_, ?_, ?_⟩, ?_, rfl⟩))
      · unfold Blank; decide
      · decide
      · unfold Digit; decide
      · decide
      · decide

example : parseUserDefinedParams (some exampleParams) = ⟨.fin 20, 30#64, 500000#64⟩ := by decide +kernel

/-! ### The two parsers -/

theorem firstWord_spec (line : List Char) : ∃ w1 tail, line = w1 ++ (firstWord line).1 ++ tail ∧
    (firstWord line).2 = tail ∧ FirstWord line (firstWord line).1 := by
  have e1 := List.takeWhile_append_dropWhile (p := isSpace) (l := line)
  have e2 := List.takeWhile_append_dropWhile (p := (!isSpace ·)) (l := line.dropWhile isSpace)
  have hl : line = line.takeWhile isSpace ++ (firstWord line).1 ++ (firstWord line).2 := by
    unfold firstWord
    simp only
    rw [List.append_assoc, e2, e1]
  refine ⟨line.takeWhile isSpace, (firstWord line).2, hl, rfl, line.takeWhile isSpace, (firstWord line).2, hl, ?_, ?_, ?_, ?_⟩
  · intro c hc
    exact (isSpace_iff c).1 (List.mem_takeWhile_imp hc)
  · intro c hc hb
    have := List.mem_takeWhile_imp (p := (!isSpace ·)) hc
    rw [(isSpace_iff c).2 hb] at this
    simp at this
  · intro c hc
    have hd : (line.dropWhile isSpace).dropWhile (!isSpace ·) ≠ [] := by
      intro e
      have : (firstWord line).2 = [] := e
      rw [this] at hc
      simp at hc
    have h0 := List.head_dropWhile_not (!isSpace ·) hd
    have : (firstWord line).2.head? = some (((line.dropWhile isSpace).dropWhile (!isSpace ·)).head hd) :=
      List.head?_eq_some_head hd
    rw [this] at hc
    simp only [Option.mem_def, Option.some.injEq] at hc
    rw [← hc]
    exact (isSpace_iff _).1 (by simpa using h0)
  · intro e
    have h0 : (line.dropWhile isSpace).takeWhile (!isSpace ·) = [] := e
    by_contra hne
    have hd : line.dropWhile isSpace ≠ [] := by
      intro hd
      apply hne
      show (line.dropWhile isSpace).dropWhile (!isSpace ·) = []
      rw [hd]
      rfl
    have hh := List.head_dropWhile_not isSpace hd
    cases hx : line.dropWhile isSpace with
    | nil => exact hd hx
    | cons c cs =>
      simp only [hx, List.head_cons] at hh
      rw [hx, List.takeWhile_cons, hh] at h0
      simp at h0

/-- The digits that the extraction of an integer looks at stand together on the line. -/
theorem extract_digits {line : List Char} (c : Char) (cs : List Char) (h : (firstWord line).2.dropWhile isSpace = c :: cs) :
    ∃ pre post, line = pre ++ (takeSign (c :: cs)).2.takeWhile isDigit ++ post := by
  obtain ⟨w1, tail, hl, ht, -⟩ := firstWord_spec line
  have e1 := List.takeWhile_append_dropWhile (p := isSpace) (l := tail)
  have hs : ∃ s, c :: cs = s ++ (takeSign (c :: cs)).2 := by
    unfold takeSign
    split
    · exact ⟨['-'], by assumption⟩
    · exact ⟨['+'], by assumption⟩
    · exact ⟨[], rfl⟩
  obtain ⟨s, hs⟩ := hs
  have e2 := List.takeWhile_append_dropWhile (p := isDigit) (l := (takeSign (c :: cs)).2)
  refine ⟨w1 ++ (firstWord line).1 ++ tail.takeWhile isSpace ++ s, (takeSign (c :: cs)).2.dropWhile isDigit, ?_⟩
  rw [ht] at h
  conv_lhs => rw [hl, ← e1, h, hs, ← e2]
  simp only [List.append_assoc]

theorem extract_agree {line : List Char} (hn : (firstWord line).1 ≠ "abs_radius".toList) (hs : ShortNumbers line) (v : Int)
    (h : extractInt (firstWord line).2 = some v) : extractU64 (firstWord line).2 = some (intToU64 v) := by
  obtain ⟨_, _, -, -, hf⟩ := firstWord_spec line
  unfold extractInt at h
  unfold extractU64
  cases hd : (firstWord line).2.dropWhile isSpace with
  | nil => rw [hd] at h; simp at h
  | cons c cs =>
    rw [hd] at h
    obtain ⟨pre, post, hl⟩ := extract_digits c cs hd
    have hb := hs _ hf hn pre _ post hl (fun x hx => (isDigit_iff x).1 (List.mem_takeWhile_imp hx))
    simp only at h ⊢
    rw [digitsVal_eq] at h ⊢
    generalize numeral ((takeSign (c :: cs)).2.takeWhile isDigit) = n at h hb
    generalize (takeSign (c :: cs)).1 = neg at h
    rw [if_neg (by omega)]
    simp only [Option.some.injEq] at h
    rw [← h]
    cases neg with
    | true =>
      simp only [if_true]
      rw [max_eq_left (by omega), intToU64, BitVec.ofInt_neg]
      rfl
    | false =>
      simp only [Bool.false_eq_true, if_false]
      rw [min_eq_left (by omega), intToU64]
      rfl

/-- One line: whenever the parser of the command line program accepts it, the legacy parser reads the same. -/
theorem paramLine_agree {line : List Char} (hs : ShortNumbers line) {c c' : UserConfig} (h : userLine c line = .ok c') :
    legacyParamLine ⟨c.radius, c.minClusterSize, c.spiderTimeRange⟩ line =
      ⟨c'.radius, c'.minClusterSize, c'.spiderTimeRange⟩ := by
  unfold userLine at h
  unfold legacyParamLine
  have ha := extract_agree (line := line)
  generalize firstWord line = w at h ha
  obtain ⟨name, rest⟩ := w
  simp only at h ha ⊢
  by_cases h0 : name.head? = some '#'
  · rw [if_pos h0] at h
    simp only [Res.ok.injEq] at h
    subst h
    rw [if_neg (by rintro rfl; revert h0; decide), if_neg (by rintro rfl; revert h0; decide),
      if_neg (by rintro rfl; revert h0; decide)]
  rw [if_neg h0] at h
  by_cases h1 : name = "abs_radius".toList
  · rw [if_pos h1] at h ⊢
    cases he : extractDouble rest with
    | none => rw [he] at h; simp at h
    | some v => rw [he] at h; simp only [Res.ok.injEq] at h; subst h; rfl
  rw [if_neg h1] at h ⊢
  by_cases h2 : name = "abs_min_cluster_size".toList
  · rw [if_pos h2] at h ⊢
    cases he : extractInt rest with
    | none => rw [he] at h; simp at h
    | some v => rw [he] at h; simp only [Res.ok.injEq] at h; subst h; rw [ha h1 hs v he]; rfl
  rw [if_neg h2] at h ⊢
  by_cases h3 : name = "spider_time_range".toList
  · rw [if_pos h3] at h ⊢
    cases he : extractInt rest with
    | none => rw [he] at h; simp at h
    | some v => rw [he] at h; simp only [Res.ok.injEq] at h; subst h; rw [ha h1 hs v he]; rfl
  rw [if_neg h3] at h ⊢
  simp only [Res.ok.injEq] at h
  subst h
  rfl

/-- C81: on every list of lines, well-formed or not, that the command line program reads without undefined behaviour, and
whose integers are below 2^31, the two parsers agree.  Missing: see `c81_false_large` and `c81_missing`. -/
theorem c81_agree_partial (text : List Char) (ls : List (List Char)) (ht : HasLines text ls) (hs : ∀ l ∈ ls, ShortNumbers l)
    (c : UserConfig) (h : userLines UserConfig.default ls = .ok c) :
    parseUserDefinedParams (some text) = ⟨c.radius, c.minClusterSize, c.spiderTimeRange⟩ := by
  unfold parseUserDefinedParams
  rw [Option.getD_some, getLines_eq ht]
  have key : ∀ (ls : List (List Char)) (d c : UserConfig), (∀ l ∈ ls, ShortNumbers l) → userLines d ls = .ok c →
      ls.foldl legacyParamLine ⟨d.radius, d.minClusterSize, d.spiderTimeRange⟩ =
        ⟨c.radius, c.minClusterSize, c.spiderTimeRange⟩ := by
    intro ls
    induction ls with
    | nil => intro d c _ h; simp only [userLines, Res.ok.injEq] at h; subst h; rfl
    | cons l ls ih =>
      intro d c hs h
      simp only [userLines] at h
      cases hl : userLine d l with
      | throws e => rw [hl] at h; simp [Res.bind] at h
      | ub u => rw [hl] at h; simp [Res.bind] at h
      | ok d' =>
        rw [hl] at h
        simp only [Res.bind] at h
        rw [List.foldl_cons, paramLine_agree (hs l (by simp)) hl]
        exact ih d' c (fun x hx => hs x (by simp [hx])) h
  exact key ls UserConfig.default c hs h

theorem numeral_append (a b : List Char) : numeral (a ++ b) = numeral a * 10 ^ b.length + numeral b := by
  unfold numeral
  rw [List.foldl_append]
  generalize List.foldl (fun a c => 10 * a + digitValue c) 0 a = s
  have key : ∀ (b : List Char) (s t : Nat), List.foldl (fun a c => 10 * a + digitValue c) (s + t) b =
      s * 10 ^ b.length + List.foldl (fun a c => 10 * a + digitValue c) t b := by
    intro b
    induction b with
    | nil => intro s t; simp
    | cons c b ih =>
      intro s t
      rw [List.foldl_cons, List.foldl_cons, Nat.mul_add, Nat.add_assoc, ih (10 * s), List.length_cons, Nat.pow_succ]
      ring
  have := key b s 0
  rwa [Nat.add_zero] at this

/-- Fewer than ten digits make a number below 2^31. -/
theorem numeral_short (d : List Char) (hd : ∀ c ∈ d, Digit c) : numeral d < 10 ^ d.length := by
  induction d using List.reverseRecOn with
  | nil => simp [numeral]
  | append_singleton d c ih =>
    have h1 := ih (fun x hx => hd x (by simp [hx]))
    have h2 : digitValue c ≤ 9 := by
      obtain ⟨_, h⟩ := hd c (by simp)
      unfold digitValue
      have : c.toNat ≤ '9'.toNat := h
      have e : '9'.toNat = 57 := by decide
      omega
    rw [numeral_append]
    have h3 : numeral [c] = digitValue c := by simp [numeral]
    rw [h3]
    simp only [List.length_append, List.length_cons, List.length_nil, Nat.pow_add, Nat.pow_zero]
    omega

/-- A line with a value that is no number, read alike. -/
example : HasLines "abs_min_cluster_size many\nabs_radius -2\n".toList
      ["abs_min_cluster_size many".toList, "abs_radius -2".toList] ∧
    (∀ l ∈ ["abs_min_cluster_size many".toList, "abs_radius -2".toList], ShortNumbers l) ∧
    ∃ c, userLines UserConfig.default ["abs_min_cluster_size many".toList, "abs_radius -2".toList] = .ok c := by
  refine ⟨⟨by decide, .inl (by decide)⟩, ?_, _, rfl⟩
  intro l hl name hf hn pre d post e hd
  have hfilter : (d.filter isDigit).length ≤ (l.filter isDigit).length := by
    rw [e, List.filter_append, List.filter_append]
    simp only [List.length_append]
    omega
  have h1 : (l.filter isDigit).length ≤ 1 := by
    simp only [List.mem_cons, List.not_mem_nil, or_false] at hl
    rcases hl with rfl | rfl <;> decide
  have h2 : d.filter isDigit = d := List.filter_eq_self.mpr fun c hc => (isDigit_iff c).2 (hd c hc)
  rw [h2] at hfilter
  have := numeral_short d hd
  have h3 : 10 ^ d.length ≤ 10 ^ 1 := Nat.pow_le_pow_right (by omega) (by omega)
  omega

/-- C81: from 2^31 on the two parsers differ: the legacy one reads the number, the other one 2^31 - 1. -/
theorem c81_false_large (c : UserConfig) :
    userLine c "spider_time_range 3000000000".toList = .ok { c with spiderTimeRange := 2147483647#64 } ∧
    legacyParamLine LegacyParams.default "spider_time_range 3000000000".toList =
      { LegacyParams.default with spiderTimeRange := 3000000000#64 } := by
  constructor
  · have h : extractInt " 3000000000".toList = some 2147483647 := by decide
    have e : firstWord "spider_time_range 3000000000".toList = ("spider_time_range".toList, " 3000000000".toList) := by decide
    unfold userLine
    rw [e]
    simp only
    rw [if_neg (by decide), if_neg (by decide), if_neg (by decide), if_pos trivial, h]
    rfl
  · have h : extractU64 " 3000000000".toList = some 3000000000#64 := by decide
    have e : firstWord "spider_time_range 3000000000".toList = ("spider_time_range".toList, " 3000000000".toList) := by decide
    unfold legacyParamLine
    rw [e]
    simp only
    rw [if_neg (by decide), if_neg (by decide), if_pos trivial, h]
    rfl

/-- C81: a name without a value changes nothing here, while the command line program takes an indeterminate value
(`c46_false_missing`). -/
theorem c81_missing (p : LegacyParams) (line name : List Char) (w1 w2 : List Char) (hl : line = w1 ++ name ++ w2)
    (h1 : ∀ c ∈ w1, Blank c) (h2 : ∀ c ∈ w2, Blank c) (h3 : ∀ c ∈ name, ¬ Blank c) (h4 : name ≠ []) :
    legacyParamLine p line = p := by
  have e : firstWord line = (name, w2) := firstWord_eq hl h1 h3 (fun c hc => h2 c (List.mem_of_mem_head? hc))
    (fun e => absurd e h4)
  have hd : w2.dropWhile isSpace = [] := List.dropWhile_eq_nil_iff.2 fun c hc => (isSpace_iff c).2 (h2 c hc)
  unfold legacyParamLine
  rw [e]
  simp only
  have hD : extractDouble w2 = none := by unfold extractDouble; rw [hd]
  have hU : extractU64 w2 = none := by unfold extractU64; rw [hd]
  rw [hD, hU]
  simp only [Option.getD_none]
  split_ifs <;> rfl

example : ("abs_radius \t".toList = [] ++ "abs_radius".toList ++ " \t".toList) ∧ (∀ c ∈ " \t".toList, Blank c) ∧
    ∀ c ∈ "abs_radius".toList, ¬ Blank c := by unfold Blank; decide

/-- C81: a negative number is accepted and wraps, whatever the line. -/
theorem c81_negative_wraps (p : LegacyParams) (line d : List Char) (n : Nat)
    (h : Setting line "abs_min_cluster_size".toList ('-' :: d)) (hd : Integer d n) (hn : n < 2 ^ 64) :
    legacyParamLine p line = { p with minClusterSize := -BitVec.ofNat 64 n } := by
  obtain ⟨w2, tail, e, h1, h2, h3, h4⟩ := Setting.firstWord h
  unfold legacyParamLine
  rw [e]
  simp only
  rw [if_neg (by decide), if_pos trivial, extractU64_neg h1 h4 hd hn]
  rfl

example : Setting "abs_min_cluster_size -3".toList "abs_min_cluster_size".toList "-3".toList ∧ Integer ['3'] 3 :=
  ⟨⟨[], [' '], [], by unfold Blank; decide⟩, by decide, by unfold Digit; decide, by decide⟩

/-- C81: a number that does not fit is taken as 2^64 - 1, with or without sign. -/
theorem c81_overflow (p : LegacyParams) :
    legacyParamLine p "spider_time_range 18446744073709551616".toList = { p with spiderTimeRange := BitVec.allOnes 64 } ∧
    legacyParamLine p "spider_time_range -18446744073709551616".toList = { p with spiderTimeRange := BitVec.allOnes 64 } := by
  have key : ∀ rest : List Char, extractU64 rest = some (BitVec.allOnes 64) →
      firstWord ("spider_time_range".toList ++ rest) = ("spider_time_range".toList, rest) →
      legacyParamLine p ("spider_time_range".toList ++ rest) = { p with spiderTimeRange := BitVec.allOnes 64 } := by
    intro rest h e
    unfold legacyParamLine
    rw [e]
    simp only
    rw [if_neg (by decide), if_neg (by decide), if_pos trivial, h]
    rfl
  exact ⟨key " 18446744073709551616".toList (by decide) (by decide), key " -18446744073709551616".toList (by decide) (by decide)⟩

/-- C81: a value that starts with a letter counts as 0 and is not reported. -/
theorem c81_false_garbage (p : LegacyParams) :
    legacyParamLine p "abs_min_cluster_size many".toList = { p with minClusterSize := 0#64 } ∧
    legacyParamLine p "abs_radius wide".toList = { p with radius := .fin 0 } := ⟨rfl, rfl⟩

end Verif.Props
