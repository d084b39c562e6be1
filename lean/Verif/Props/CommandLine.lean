import Verif.Model.CliMain
import Verif.Lemmas.Getopt
import Verif.Props.Reader

/-!
# C75: the command line
-/

namespace Verif.Props

open Verif Verif.Spec

theorem letters_value : valueLetters = argLetters := by decide
theorem letters_switch : switchLetters = flagLetters := by decide

theorem lettersOk : LettersOk argLetters flagLetters := by unfold LettersOk; decide

theorem applyItems_no_bad (is : List OptItem) (o o' : ProgramOptions) (h : applyItems o is = .ok o') (c : Char) :
    .bad c ∉ is := by
  induction is generalizing o with
  | nil => simp
  | cons i is ih =>
    rw [applyItems] at h
    intro hm
    rcases List.mem_cons.mp hm with rfl | hm
    · simp [applyItem, Res.bind] at h
    · cases hi : applyItem o i with
      | ok o1 => rw [hi] at h; exact ih o1 h hm
      | throws e => rw [hi] at h; simp [Res.bind] at h
      | ub u => rw [hi] at h; simp [Res.bind] at h

/-- C75, rejection: a command line that is accepted writes down settings, i.e. every unknown letter and every missing
value is rejected. -/
theorem c75_grammar (argv : List Arg) (o : ProgramOptions) (h : parseArguments argv = .ok o) :
    ∃ ss, Written valueLetters switchLetters ss argv := by
  unfold parseArguments at h
  cases ha : applyItems {} (getoptGo argLetters flagLetters none argv) with
  | ok o1 => exact written_of_getopt lettersOk _ argv le_rfl (applyItems_no_bad _ _ _ ha)
  | throws e => rw [ha] at h; simp [Res.bind] at h
  | ub u => rw [ha] at h; simp [Res.bind] at h

/-! ## The values -/

/-- Effect of one setting. -/
def OptStep (o o' : ProgramOptions) (mb : List Char → Nat) (a : CliSetting) : Prop :=
  o' = ⟨(a.valueFor 'i').getD o.input, (a.valueFor 'H').getD o.outHits, (a.valueFor 'E').getD o.outEvents,
    (a.valueFor 'u').getD o.configFile, (a.valueFor 'T').getD o.outTof, (a.valueFor 'f').getD o.tofBase,
    (a.valueFor 'm').getD o.tofMode, (a.valueFor 's').getD o.spectra, (a.valueFor 't').getD o.timing,
    ((a.valueFor 'c').map fun v => chunkSizeOf (mb v)).getD o.chunkSize, o.debug || a = .switch 'd',
    o.verbose || a = .switch 'v'⟩

theorem applyItem_step (o : ProgramOptions) (mb : List Char → Nat) (a : CliSetting) (hk : a.Known argLetters flagLetters)
    (hc : ∀ v, a = .value 'c' v → stoull v = .ok (mb v)) : ∃ o', applyItem o (itemOf a) = .ok o' ∧ OptStep o o' mb a := by
  match a, hk, hc with
  | .switch c, hk, _ =>
    simp only [CliSetting.Known, flagLetters, List.mem_cons, List.not_mem_nil, or_false] at hk
    rcases hk with rfl | rfl <;> exact ⟨_, rfl, by simp [OptStep, CliSetting.valueFor]⟩
  | .value c v, hk, hc =>
    simp only [CliSetting.Known, argLetters, List.mem_cons, List.not_mem_nil, or_false] at hk
    rcases hk with rfl | rfl | rfl | rfl | rfl | rfl | rfl | rfl | rfl | rfl
    case inr.inr.inr.inr.inr.inr.inr.inr.inr =>
      refine ⟨{ o with chunkSize := chunkSizeOf (mb v) }, ?_, by simp [OptStep, CliSetting.valueFor]⟩
      show (stoull v).bind _ = _
      rw [hc v rfl]; rfl
    all_goals exact ⟨_, rfl, by simp [OptStep, CliSetting.valueFor]⟩

/-- The options that the settings describe: for every letter the last value, or the default. -/
def optionsOf (o : ProgramOptions) (mb : List Char → Nat) (ss : List CliSetting) : ProgramOptions :=
  ⟨(lastValue ss 'i').getD o.input, (lastValue ss 'H').getD o.outHits, (lastValue ss 'E').getD o.outEvents,
    (lastValue ss 'u').getD o.configFile, (lastValue ss 'T').getD o.outTof, (lastValue ss 'f').getD o.tofBase,
    (lastValue ss 'm').getD o.tofMode, (lastValue ss 's').getD o.spectra, (lastValue ss 't').getD o.timing,
    ((lastValue ss 'c').map fun v => chunkSizeOf (mb v)).getD o.chunkSize, o.debug || decide (.switch 'd' ∈ ss),
    o.verbose || decide (.switch 'v' ∈ ss)⟩

theorem applyItems_settings (ss : List CliSetting) (o : ProgramOptions) (mb : List Char → Nat) (hk : ∀ a ∈ ss, a.Known argLetters flagLetters)
    (hc : ∀ v, .value 'c' v ∈ ss → stoull v = .ok (mb v)) : applyItems o (ss.map itemOf) = .ok (optionsOf o mb ss) := by
  induction ss generalizing o with
  | nil => simp [applyItems, optionsOf, lastValue]
  | cons a ss ih =>
    obtain ⟨o', h1, h2⟩ := applyItem_step o mb a (hk a (by simp)) (fun v hv => hc v (by simp [hv]))
    rw [List.map_cons, applyItems, h1]
    simp only [Res.bind]
    rw [ih o' (fun b hb => hk b (by simp [hb])) (fun v hv => hc v (by simp [hv])), h2]
    unfold optionsOf
    simp only [lastValue_cons, lastValue_cons_map, List.mem_cons, Bool.decide_or, Bool.or_assoc, eq_comm]

theorem chunkSizeOf_small (n : Nat) (h : n < 2 ^ 44) : chunkSizeOf n = n * 2 ^ 20 := (c22_accepted_sizes n).2 h

theorem size_of_last (o : Option (List Char)) (mb : List Char → Nat) (hc : ∀ v ∈ o, mb v < 2 ^ 44) :
    (o.map fun v => chunkSizeOf (mb v)).getD (5 * 1024 * 1024 * 1024) = (o.map mb).getD 5120 * 2 ^ 20 := by
  rcases o with _ | v
  · rw [Option.map_none, Option.map_none, Option.getD_none, Option.getD_none]
    norm_num
  · rw [Option.map_some, Option.map_some, Option.getD_some, Option.getD_some]
    exact chunkSizeOf_small _ (hc v rfl)

/-- C75: a command line that writes down settings, the chunk size among them as a number of megabytes below 2^44, is
accepted exactly when the settings are valid together, and then every member of the options has the last value given for
its letter, or its default; nothing else on the line matters. -/
theorem c75_settings_partial (ss : List CliSetting) (argv : List Arg) (h : Written valueLetters switchLetters ss argv) (mb : List Char → Nat)
    (hc : ∀ v, .value 'c' v ∈ ss → Integer v (mb v) ∧ mb v < 2 ^ 44) :
    (SettingsValid ss → parseArguments argv = .ok
      { input := valueOr ss 'i' "", outHits := valueOr ss 'H' "", outEvents := valueOr ss 'E' "",
        configFile := valueOr ss 'u' "", outTof := valueOr ss 'T' "", tofBase := valueOr ss 'f' "tof_image",
        tofMode := valueOr ss 'm' "neutron", spectra := valueOr ss 's' "Spectra", timing := valueOr ss 't' "tdc",
        chunkSize := ((lastValue ss 'c').map mb).getD 5120 * 2 ^ 20,
        debug := decide (.switch 'd' ∈ ss), verbose := decide (.switch 'v' ∈ ss) }) ∧
    (¬ SettingsValid ss → ∃ e, parseArguments argv = .throws e) := by
  have hk := Written.known h
  have ha := applyItems_settings ss {} mb hk (fun v hv => stoull_integer v (mb v) (hc v hv).1 (by have := (hc v hv).2; omega))
  have hsize := size_of_last (lastValue ss 'c') mb (fun v hv => (hc v (mem_of_lastValue hv)).2)
  obtain ⟨q, hq⟩ : ∃ q, q = ((lastValue ss 'c').map mb).getD 5120 * 2 ^ 20 := ⟨_, rfl⟩
  rw [← hq] at hsize ⊢
  clear hq
  have hp : parseArguments argv = validateOptions (optionsOf {} mb ss) := by
    unfold parseArguments
    rw [getopt_written lettersOk h, ha]
    rfl
  rw [hp]
  unfold validateOptions
  constructor
  · rintro ⟨v1, v2, v3⟩
    rw [if_neg, if_neg, if_neg]
    · unfold optionsOf
      simp only [Bool.false_or, hsize]
      rfl
    · intro hh
      simp only [List.mem_cons, List.not_mem_nil, or_false] at v3
      rcases v3 with v3 | v3
      · exact hh.1 v3
      · exact hh.2 v3
    · intro hh
      simp only [List.mem_cons, List.not_mem_nil, or_false] at v2
      rcases v2 with v2 | v2
      · exact hh.1 v2
      · exact hh.2 v2
    · exact v1
  · intro hv
    by_cases h1 : (optionsOf {} mb ss).input = []
    · rw [if_pos h1]; exact ⟨_, rfl⟩
    · rw [if_neg h1]
      by_cases h2 : (optionsOf {} mb ss).tofMode ≠ "hit".toList ∧ (optionsOf {} mb ss).tofMode ≠ "neutron".toList
      · rw [if_pos h2]; exact ⟨_, rfl⟩
      · rw [if_neg h2]
        by_cases h3 : (optionsOf {} mb ss).timing ≠ "gdc".toList ∧ (optionsOf {} mb ss).timing ≠ "tdc".toList
        · rw [if_pos h3]; exact ⟨_, rfl⟩
        · exfalso
          apply hv
          refine ⟨h1, ?_, ?_⟩
          · rw [not_and_or, not_not, not_not] at h2
            exact List.mem_cons.mpr (h2.imp id List.mem_singleton.mpr)
          · rw [not_and_or, not_not, not_not] at h3
            exact List.mem_cons.mpr (h3.imp id List.mem_singleton.mpr)

/-- C75, order: two command lines with the same settings in any order, no letter twice, have the same result. -/
theorem c75_order (ss ss' : List CliSetting) (argv argv' : List Arg) (h : Written valueLetters switchLetters ss argv) (h' : Written valueLetters switchLetters ss' argv')
    (hp : ss.Perm ss') (hd : ∀ c, (ss.filterMap (CliSetting.valueFor c)).length ≤ 1) (mb : List Char → Nat)
    (hc : ∀ v, .value 'c' v ∈ ss → Integer v (mb v) ∧ mb v < 2 ^ 44) (o : ProgramOptions)
    (hok : parseArguments argv = .ok o) : parseArguments argv' = .ok o := by
  have hl : ∀ c, lastValue ss' c = lastValue ss c := by
    intro c
    have hq := hp.filterMap (CliSetting.valueFor c)
    unfold lastValue
    have h1 := hd c
    generalize ss.filterMap (CliSetting.valueFor c) = l at hq h1
    generalize ss'.filterMap (CliSetting.valueFor c) = l' at hq
    match l, h1, hq with
    | [], _, hq => rw [hq.nil_eq]
    | [a], _, hq => rw [List.perm_singleton.mp hq.symm]
  have hv : SettingsValid ss ↔ SettingsValid ss' := by
    unfold SettingsValid valueOr
    simp only [hl]
  obtain ⟨a1, a2⟩ := c75_settings_partial ss argv h mb hc
  obtain ⟨b1, -⟩ := c75_settings_partial ss' argv' h' mb (fun v hv => hc v (hp.mem_iff.mpr hv))
  by_cases hs : SettingsValid ss
  · rw [b1 (hv.mp hs), ← hok, a1 hs]
    simp only [valueOr, hl, hp.mem_iff]
  · obtain ⟨e, he⟩ := a2 hs
    rw [he] at hok
    cases hok

/-- A line with attached and separate values, switches in one word, and a plain word. -/
example : Written valueLetters switchLetters [.switch 'd', .switch 'v', .value 'i' "a".toList, .value 'c' "12".toList]
    ["-dv".toList, "-ia".toList, "word".toList, "-c".toList, "12".toList] := by
  refine .flags (ss := [.value 'i' "a".toList, .value 'c' "12".toList]) ['d', 'v'] (by simp) (by decide) ?_
  refine .attached (ss := [.value 'c' "12".toList]) [] 'i' ['a'] (by simp) (by decide) (by simp) ?_
  refine .plain _ (Or.inl (by decide)) ?_
  exact .separate [] 'c' "12".toList (by simp) (by decide) .nil

example : Integer "12".toList 12 := by unfold Integer Digit; decide

example : SettingsValid [.switch 'd', .switch 'v', .value 'i' "a".toList, .value 'c' "12".toList] := by
  unfold SettingsValid; decide

/-- Two orders of two settings, as in `c75_order`. -/
example : Written valueLetters switchLetters [.value 'i' "a".toList, .value 'm' "hit".toList] ["-ia".toList, "-m".toList, "hit".toList] ∧
    Written valueLetters switchLetters [.value 'm' "hit".toList, .value 'i' "a".toList] ["-mhit".toList, "-ia".toList] ∧
    [CliSetting.value 'i' "a".toList, .value 'm' "hit".toList].Perm [.value 'm' "hit".toList, .value 'i' "a".toList] ∧
    ∃ o, parseArguments ["-ia".toList, "-m".toList, "hit".toList] = .ok o :=
  ⟨.attached (ss := [.value 'm' "hit".toList]) [] 'i' ['a'] (by simp) (by decide) (by simp)
      (.separate [] 'm' "hit".toList (by simp) (by decide) .nil),
    .attached (ss := [.value 'i' "a".toList]) [] 'm' ['h', 'i', 't'] (by simp) (by decide) (by simp)
      (.attached [] 'i' ['a'] (by simp) (by decide) (by simp) .nil),
    List.Perm.swap _ _ _, { input := "a".toList, tofMode := "hit".toList }, by decide +kernel⟩

/-- C75 is false for the chunk size: text after the number is dropped, a negative number wraps to nearly 2^64 bytes, and 0
is accepted (with which nothing is read, `c22_zero_size`). -/
theorem c75_false_chunk_size :
    ((parseArguments ["-ia".toList, "-c5GB".toList]).bind fun o => .ok o.chunkSize) = .ok (5 * 2 ^ 20) ∧
    ((parseArguments ["-ia".toList, "-c-1".toList]).bind fun o => .ok o.chunkSize) = .ok (2 ^ 64 - 2 ^ 20) ∧
    ((parseArguments ["-ia".toList, "-c".toList, "0".toList]).bind fun o => .ok o.chunkSize) = .ok 0 := by
  refine ⟨?_, ?_, ?_⟩ <;> decide +kernel

/-- A number of 2^64 or more is refused. -/
theorem stoull_big (v : List Char) (n : Nat) (h : Integer v n) (hn : 2 ^ 64 ≤ n) : stoull v = .throws "stoull" := by
  obtain ⟨h1, h2, h3⟩ := h
  obtain ⟨c, cs, rfl⟩ := List.exists_cons_of_ne_nil h1
  have hc := h2 c (by simp)
  have hsp : isSpace c = false := by
    have : isDigit c = true := (isDigit_iff c).mpr hc
    by_contra hs
    rw [Bool.not_eq_false] at hs
    unfold isSpace at hs
    simp only [Bool.decide_or, Bool.or_eq_true, decide_eq_true_eq] at hs
    rcases hs with rfl | rfl | rfl | rfl | rfl | rfl <;> revert this <;> decide
  have hsg := takeSign_digit hc cs
  have htw : (c :: cs).takeWhile isDigit = c :: cs := by
    have := (takeWhile_split (p := isDigit) (a := c :: cs) (b := []) (fun x hx => (isDigit_iff x).mpr (h2 x hx)) (by simp)).1
    rwa [List.append_nil] at this
  unfold stoull
  rw [List.dropWhile_cons_of_neg (by rw [hsp]; simp), hsg]
  simp only [htw, digitsVal_eq, h3]
  rw [if_neg (by simp), if_pos (by omega)]

theorem applyItem_no_ub (o : ProgramOptions) (i : OptItem) (u : UB) : applyItem o i ≠ .ub u := by
  have key : ∀ (v : List Char) (u : UB), stoull v ≠ .ub u := by
    intro v u h
    unfold stoull at h
    simp only at h
    split_ifs at h
  unfold applyItem
  split
  case h_12 v =>
    intro h
    cases hs : stoull v with
    | ok m => rw [hs] at h; cases h
    | throws m => rw [hs] at h; cases h
    | ub u => exact key v u hs
  all_goals
    intro h
    cases h

/-- C75: a chunk size of 2^64 or more, anywhere on the line, ends the program with an error. -/
theorem c75_too_big (ss : List CliSetting) (argv : List Arg) (h : Written valueLetters switchLetters ss argv) (v : List Char) (n : Nat)
    (hv : .value 'c' v ∈ ss) (hi : Integer v n) (hn : 2 ^ 64 ≤ n) : ∃ e, parseArguments argv = .throws e := by
  unfold parseArguments
  rw [getopt_written lettersOk h]
  clear h
  have key : ∀ o, ∃ e, applyItems o (ss.map itemOf) = .throws e := by
    induction ss with
    | nil => simp at hv
    | cons a ss ih =>
      intro o
      rw [List.map_cons, applyItems]
      rcases List.mem_cons.mp hv with rfl | hv
      · refine ⟨"stoull", ?_⟩
        show ((stoull v).bind _).bind _ = _
        rw [stoull_big v n hi hn]
        rfl
      · cases ha : applyItem o (itemOf a) with
        | ok o' => exact ih hv o'
        | throws e => exact ⟨e, rfl⟩
        | ub u => exact absurd ha (applyItem_no_ub o _ u)
  obtain ⟨e, he⟩ := key {}
  exact ⟨e, by rw [he]; rfl⟩

/-- `c75_too_big`: 2^64 itself. -/
example : Integer "18446744073709551616".toList (2 ^ 64) := ⟨by decide, fun c hc => (isDigit_iff c).mp ((by decide : ∀ c ∈ "18446744073709551616".toList, isDigit c = true) c hc), by decide⟩

/-- C75: and a chunk size from 2^44 megabytes to there is accepted, but another one is used: the number of bytes modulo 2^64. -/
theorem c75_false_wraps (a v : List Char) (ha : a ≠ []) (n : Nat) (hi : Integer v n) (hn : n < 2 ^ 64) :
    ((parseArguments ["-i".toList, a, "-c".toList, v]).bind fun o => .ok o.chunkSize) = .ok (n * 2 ^ 20 % 2 ^ 64) := by
  have hw : Written valueLetters switchLetters [.value 'i' a, .value 'c' v] ["-i".toList, a, "-c".toList, v] :=
    .separate [] 'i' a (by simp) (by decide) (.separate [] 'c' v (by simp) (by decide) .nil)
  unfold parseArguments
  rw [getopt_written lettersOk hw]
  show ((((stoull v).bind _).bind _).bind _).bind _ = _
  rw [stoull_integer v n hi hn]
  show (validateOptions { input := a, chunkSize := chunkSizeOf n }).bind _ = _
  unfold validateOptions
  rw [if_neg ha, if_neg (show ¬ ("neutron".toList ≠ "hit".toList ∧ "neutron".toList ≠ "neutron".toList) by decide),
    if_neg (show ¬ ("tdc".toList ≠ "gdc".toList ∧ "tdc".toList ≠ "tdc".toList) by decide)]
  show Res.ok (chunkSizeOf n) = _
  have e : chunkSizeOf n = n * 2 ^ 20 % 2 ^ 64 := by
    unfold chunkSizeOf
    rw [BitVec.toNat_mul, BitVec.toNat_mul, BitVec.toNat_ofNat, BitVec.toNat_ofNat]
    omega
  rw [e]

/-- `c75_false_wraps`: 2^44 megabytes are taken for nothing. -/
example : Integer "17592186044416".toList (2 ^ 44) ∧ 2 ^ 44 * 2 ^ 20 % 2 ^ 64 = 0 := ⟨⟨by decide, fun c hc => (isDigit_iff c).mp ((by decide : ∀ c ∈ "17592186044416".toList, isDigit c = true) c hc), by decide⟩, by decide⟩

/-- C75 is false for a forgotten value: the next option is taken as the value, so its own effect is lost. -/
theorem c75_false_swallowed :
    ((parseArguments ["-ia".toList, "-H".toList, "-E".toList, "e.h5".toList]).bind fun o =>
      .ok (o.outHits, o.outEvents)) = .ok ("-E".toList, []) := by decide +kernel

/-- C75 is false for plain words: they are dropped without an error, wherever they stand before `--`. -/
theorem c75_false_plain_words (pre post : List Arg) (a : Arg) (ha : PlainWord a)
    (hpre : ∀ b ∈ pre, PlainWord b) : parseArguments (pre ++ a :: post) = parseArguments (pre ++ post) := by
  have key : ∀ l rest : List Arg, (∀ b ∈ l, PlainWord b) → getoptGo argLetters flagLetters none (l ++ rest) = getoptGo argLetters flagLetters none rest := by
    intro l
    induction l with
    | nil => intro rest _; rfl
    | cons b l ih =>
      intro rest hb
      rw [List.cons_append, getoptGo_plain b _ (hb b (by simp)), ih rest (fun c hc => hb c (by simp [hc]))]
  unfold parseArguments
  rw [key pre _ hpre, key pre _ hpre, getoptGo_plain a post ha]

end Verif.Props
