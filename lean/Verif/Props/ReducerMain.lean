import Verif.Model.ReducerMain
import Verif.Spec.ReducerMain
import Verif.Lemmas.Getopt
import Verif.Props.Reducer

/-!
# C79: the automatic reducer as a program
-/

namespace Verif.Props

open Verif Verif.Spec

theorem red_letters_value : redValueLetters = redArgLetters := by decide
theorem red_letters_switch : redSwitchLetters = redFlagLetters := by decide

theorem redLettersOk : LettersOk redArgLetters redFlagLetters := by unfold LettersOk; decide

theorem redItems_no_bad (is : List OptItem) (o o' : RedOptions) (h : applyRedItems o is = .ok o') (c : Char) :
    .bad c ∉ is := by
  induction is generalizing o with
  | nil => simp
  | cons i is ih =>
    rw [applyRedItems] at h
    intro hm
    rcases List.mem_cons.mp hm with rfl | hm
    · simp [applyRedItem, Res.bind] at h
    · cases hi : applyRedItem o i with
      | ok o1 => rw [hi] at h; exact ih o1 h hm
      | throws e => rw [hi] at h; simp [Res.bind] at h
      | ub u => rw [hi] at h; simp [Res.bind] at h

/-- C79, rejection: a command line that is accepted writes down settings. -/
theorem c79_grammar (argv : List Arg) (o : RedOptions) (h : redParse argv = .ok o) :
    ∃ ss, Written redValueLetters redSwitchLetters ss argv := by
  unfold redParse at h
  rw [red_letters_value, red_letters_switch]
  cases ha : applyRedItems {} (getoptGo redArgLetters redFlagLetters none argv) with
  | ok o1 => exact written_of_getopt redLettersOk _ argv le_rfl (redItems_no_bad _ _ _ ha)
  | throws e => rw [ha] at h; simp [Res.bind] at h
  | ub u => rw [ha] at h; simp [Res.bind] at h

theorem stoi_integer (v : List Char) (n : Nat) (h : Integer v n) (hn : n < 2 ^ 31) : stoi v = .ok n := by
  obtain ⟨h1, h2, h3⟩ := h
  obtain ⟨c, cs, rfl⟩ := List.exists_cons_of_ne_nil h1
  have hc := h2 c (by simp)
  have hsp : isSpace c = false := by
    have : isDigit c = true := (isDigit_iff c).mpr hc
    by_contra hs
    rw [Bool.not_eq_false] at hs
    unfold isSpace at hs
    simp only [Bool.decide_or, Bool.or_eq_true, decide_eq_true_eq] at hs
    rcases hs with rfl | rfl | rfl | rfl | rfl | rfl <;> revert this <;> decide
  have hsg := takeSign_digit hc cs
  have htw : (c :: cs).takeWhile isDigit = c :: cs := by
    have := (takeWhile_split (p := isDigit) (a := c :: cs) (b := []) (fun x hx => (isDigit_iff x).mpr (h2 x hx)) (by simp)).1
    rwa [List.append_nil] at this
  unfold stoi
  rw [List.dropWhile_cons_of_neg (by rw [hsp]; simp), hsg]
  simp only [htw, digitsVal_eq, h3]
  rw [if_neg (by simp), if_neg (by simp; omega)]
  simp

theorem stoi_too_big (v : List Char) (n : Nat) (h : Integer v n) (hn : 2 ^ 31 ≤ n) : stoi v = .throws "stoi" := by
  obtain ⟨h1, h2, h3⟩ := h
  obtain ⟨c, cs, rfl⟩ := List.exists_cons_of_ne_nil h1
  have hc := h2 c (by simp)
  have hsp : isSpace c = false := by
    have : isDigit c = true := (isDigit_iff c).mpr hc
    by_contra hs
    rw [Bool.not_eq_false] at hs
    unfold isSpace at hs
    simp only [Bool.decide_or, Bool.or_eq_true, decide_eq_true_eq] at hs
    rcases hs with rfl | rfl | rfl | rfl | rfl | rfl <;> revert this <;> decide
  have hsg := takeSign_digit hc cs
  have htw : (c :: cs).takeWhile isDigit = c :: cs := by
    have := (takeWhile_split (p := isDigit) (a := c :: cs) (b := []) (fun x hx => (isDigit_iff x).mpr (h2 x hx)) (by simp)).1
    rwa [List.append_nil] at this
  unfold stoi
  rw [List.dropWhile_cons_of_neg (by rw [hsp]; simp), hsg]
  simp only [htw, digitsVal_eq, h3]
  rw [if_neg (by simp), if_pos (by right; simp; omega)]

/-- The options that the settings describe. -/
def redOptionsOf (o : RedOptions) (sec : List Char → Nat) (ss : List CliSetting) : RedOptions :=
  ⟨(lastValue ss 'i').getD o.input, (lastValue ss 'o').getD o.output, (lastValue ss 'u').getD o.configFile,
    (lastValue ss 'f').getD o.base, (lastValue ss 'm').getD o.tofMode,
    ((lastValue ss 'c').map fun v => (sec v : Int)).getD o.interval, o.verbose || decide (.switch 'v' ∈ ss),
    o.debug || decide (.switch 'd' ∈ ss)⟩

theorem redItem_step (o : RedOptions) (sec : List Char → Nat) (a : CliSetting) (hk : a.Known redArgLetters redFlagLetters)
    (hc : ∀ v, a = .value 'c' v → stoi v = .ok (sec v : Int)) : applyRedItem o (itemOf a) = .ok
      ⟨(a.valueFor 'i').getD o.input, (a.valueFor 'o').getD o.output, (a.valueFor 'u').getD o.configFile,
        (a.valueFor 'f').getD o.base, (a.valueFor 'm').getD o.tofMode,
        ((a.valueFor 'c').map fun v => (sec v : Int)).getD o.interval, o.verbose || a = .switch 'v',
        o.debug || a = .switch 'd'⟩ := by
  match a, hk, hc with
  | .switch c, hk, _ =>
    simp only [CliSetting.Known, redFlagLetters, List.mem_cons, List.not_mem_nil, or_false] at hk
    rcases hk with rfl | rfl <;> simp [applyRedItem, itemOf, CliSetting.valueFor]
  | .value c v, hk, hc =>
    simp only [CliSetting.Known, redArgLetters, List.mem_cons, List.not_mem_nil, or_false] at hk
    rcases hk with rfl | rfl | rfl | rfl | rfl | rfl
    case inr.inr.inr.inr.inr =>
      show (stoi v).bind _ = _
      rw [hc v rfl]
      simp [Res.bind, CliSetting.valueFor]
    all_goals simp [applyRedItem, itemOf, CliSetting.valueFor]

theorem lastValue_cons_map' {α : Type} (a : CliSetting) (ss : List CliSetting) (c : Char) (f : List Char → α) (d : α) :
    ((lastValue (a :: ss) c).map f).getD d = ((lastValue ss c).map f).getD (((a.valueFor c).map f).getD d) := by
  unfold lastValue
  rw [List.filterMap_cons]
  cases h : a.valueFor c with
  | none => simp
  | some v =>
    simp only [List.getLast?_cons, Option.map_some, Option.getD_some]
    cases (ss.filterMap (CliSetting.valueFor c)).getLast? <;> rfl

theorem redItems_settings (ss : List CliSetting) (o : RedOptions) (sec : List Char → Nat)
    (hk : ∀ a ∈ ss, a.Known redArgLetters redFlagLetters) (hc : ∀ v, .value 'c' v ∈ ss → stoi v = .ok (sec v : Int)) :
    applyRedItems o (ss.map itemOf) = .ok (redOptionsOf o sec ss) := by
  induction ss generalizing o with
  | nil => simp [applyRedItems, redOptionsOf, lastValue]
  | cons a ss ih =>
    rw [List.map_cons, applyRedItems, redItem_step o sec a (hk a (by simp)) (fun v hv => hc v (by simp [hv]))]
    simp only [Res.bind]
    rw [ih _ (fun b hb => hk b (by simp [hb])) (fun v hv => hc v (by simp [hv]))]
    unfold redOptionsOf
    simp only [lastValue_cons, lastValue_cons_map', List.mem_cons, Bool.decide_or, Bool.or_assoc, eq_comm]

theorem redItem_defined (o : RedOptions) (i : OptItem) (u : UB) : applyRedItem o i ≠ .ub u := by
  unfold applyRedItem
  split <;> try simp
  rename_i v
  have : ∀ u, stoi v ≠ .ub u := by
    intro u
    unfold stoi
    generalize takeSign (v.dropWhile isSpace) = q
    obtain ⟨neg, l⟩ := q
    simp only
    generalize (if neg = true then _ else _ : Int) = z
    by_cases h1 : l.takeWhile isDigit = []
    · rw [if_pos h1]; simp
    · rw [if_neg h1]
      by_cases h2 : z < -2 ^ 31 ∨ 2 ^ 31 ≤ z
      · rw [if_pos h2]; simp
      · rw [if_neg h2]; simp
  cases h : stoi v with
  | ok n => simp [Res.bind]
  | throws e => simp [Res.bind]
  | ub w => exact absurd h (this w)

theorem redItems_defined (is : List OptItem) (o : RedOptions) (u : UB) : applyRedItems o is ≠ .ub u := by
  induction is generalizing o with
  | nil => simp [applyRedItems]
  | cons i is ih =>
    rw [applyRedItems]
    cases h : applyRedItem o i with
    | ok o' => exact ih o'
    | throws e => simp [Res.bind]
    | ub v => exact absurd h (redItem_defined o i v)

theorem redItems_fail (is : List OptItem) (o : RedOptions) (i : OptItem) (hi : i ∈ is) (hf : ∀ o, ∃ e, applyRedItem o i = .throws e) :
    ∃ e, applyRedItems o is = .throws e := by
  induction is generalizing o with
  | nil => simp at hi
  | cons a is ih =>
    rw [applyRedItems]
    cases h : applyRedItem o a with
    | throws e => exact ⟨e, rfl⟩
    | ub v => exact absurd h (redItem_defined o a v)
    | ok o' =>
      rcases List.mem_cons.mp hi with rfl | hi
      · obtain ⟨e, he⟩ := hf o
        rw [he] at h
        cases h
      · exact ih o' hi

/-- C79: an interval of 2^31 or more is refused, whatever else is on the command line. -/
theorem c79_too_big (ss : List CliSetting) (argv : List Arg) (h : Written redValueLetters redSwitchLetters ss argv)
    (v : List Char) (n : Nat) (hv : .value 'c' v ∈ ss) (hn : Integer v n) (hb : 2 ^ 31 ≤ n) : ∃ e, redParse argv = .throws e := by
  rw [red_letters_value, red_letters_switch] at h
  unfold redParse
  rw [getopt_written redLettersOk h]
  obtain ⟨e, he⟩ := redItems_fail (ss.map itemOf) {} (itemOf (.value 'c' v)) (List.mem_map.mpr ⟨_, hv, rfl⟩) fun o =>
    ⟨"stoi", by
      show (stoi v).bind _ = _
      rw [stoi_too_big v n hn hb]
      rfl⟩
  rw [he]
  exact ⟨e, rfl⟩

example : Integer "2147483648".toList (2 ^ 31) ∧ (∃ e, redParse ["-c".toList, "2147483648".toList] = .throws e) := by
  refine ⟨⟨by decide, by unfold Digit; decide, by decide +kernel⟩, "stoi", by decide +kernel⟩

/-- C79: a command line that writes down settings, the interval among them as a number below 2^31, is accepted exactly when
the settings are valid together, and then every member of the options has the last value given for its letter, or its
default. -/
theorem c79_settings_partial (ss : List CliSetting) (argv : List Arg) (h : Written redValueLetters redSwitchLetters ss argv)
    (sec : List Char → Nat) (hc : ∀ v, .value 'c' v ∈ ss → Integer v (sec v) ∧ sec v < 2 ^ 31) (n : Nat)
    (hn : n = ((lastValue ss 'c').map sec).getD 5) :
    (RedSettingsValid ss n → redParse argv = .ok
      { input := valueOr ss 'i' "", output := valueOr ss 'o' "", configFile := valueOr ss 'u' "",
        base := valueOr ss 'f' "tof_image", tofMode := valueOr ss 'm' "neutron", interval := n,
        verbose := decide (.switch 'v' ∈ ss), debug := decide (.switch 'd' ∈ ss) }) ∧
    (¬ RedSettingsValid ss n → ∃ e, redParse argv = .throws e) := by
  rw [red_letters_value, red_letters_switch] at h
  have ha := redItems_settings ss {} sec (Written.known h) (fun v hv => stoi_integer v (sec v) (hc v hv).1 (hc v hv).2)
  have hi : ((lastValue ss 'c').map fun v => (sec v : Int)).getD 5 = (n : Int) := by
    rw [hn]; cases lastValue ss 'c' <;> rfl
  have hp : redParse argv = redValidate (redOptionsOf {} sec ss) := by
    unfold redParse
    rw [getopt_written redLettersOk h, ha]
    rfl
  have hint : (redOptionsOf {} sec ss).interval = (n : Int) := by
    unfold redOptionsOf
    simp only [hi]
  rw [hp]
  unfold redValidate
  constructor
  · rintro ⟨v1, v2, v3, v4⟩
    rw [if_neg, if_neg, if_neg]
    · unfold redOptionsOf
      simp only [Bool.false_or, hi]
      rfl
    · rw [hint]; omega
    · intro hh
      simp only [List.mem_cons, List.not_mem_nil, or_false] at v3
      rcases v3 with v3 | v3
      · exact hh.1 v3
      · exact hh.2 v3
    · rintro (hh | hh)
      · exact v1 hh
      · exact v2 hh
  · intro hv
    by_cases h1 : (redOptionsOf {} sec ss).input = [] ∨ (redOptionsOf {} sec ss).output = []
    · rw [if_pos h1]; exact ⟨_, rfl⟩
    · rw [if_neg h1]
      by_cases h2 : (redOptionsOf {} sec ss).tofMode ≠ "hit".toList ∧ (redOptionsOf {} sec ss).tofMode ≠ "neutron".toList
      · rw [if_pos h2]; exact ⟨_, rfl⟩
      · rw [if_neg h2]
        by_cases h3 : (redOptionsOf {} sec ss).interval ≤ 0
        · rw [if_pos h3]; exact ⟨_, rfl⟩
        · exfalso
          apply hv
          rw [not_or] at h1
          refine ⟨h1.1, h1.2, ?_, by rw [hint] at h3; omega⟩
          rw [not_and_or, not_not, not_not] at h2
          exact List.mem_cons.mpr (h2.imp id List.mem_singleton.mpr)

/-- A valid line: directories, and an interval of ten seconds. -/
example : Written redValueLetters redSwitchLetters [.value 'i' ['a'], .value 'o' ['b'], .value 'c' "10".toList]
      ["-ia".toList, "-ob".toList, "-c".toList, "10".toList] ∧
    RedSettingsValid [.value 'i' ['a'], .value 'o' ['b'], .value 'c' "10".toList] 10 ∧ Integer "10".toList 10 :=
  ⟨.attached (ss := [.value 'o' ['b'], .value 'c' "10".toList]) [] 'i' ['a'] (by simp) (by decide) (by simp)
      (.attached (ss := [.value 'c' "10".toList]) [] 'o' ['b'] (by simp) (by decide) (by simp)
        (.separate [] 'c' "10".toList (by simp) (by decide) .nil)),
    by unfold RedSettingsValid; decide, by unfold Integer Digit; decide⟩

/-- C79 is false for the interval: text after the number is dropped, so minutes are taken as seconds. -/
theorem c79_false_interval :
    ((redParse ["-ia".toList, "-ob".toList, "-c5min".toList]).bind fun o => .ok o.interval) = .ok 5 ∧
    ((redParse ["-ia".toList, "-ob".toList, "-c1.5".toList]).bind fun o => .ok o.interval) = .ok 1 := by
  constructor <;> decide +kernel

/-- C79, code 0: the options were accepted, the end marker was seen, every raw file listed in an earlier round has been tried,
and the output directory and base name of the command line hold what saving the images of the files processed with success
produces.  Missing: that they were all processed (`c79_false_failed`). -/
theorem c79_zero_partial (argv : List Arg) (conf : Path → Res Settings) (solve : List GaussRow → F64 × F64)
    (rs : List (List DirEntry × List DirEntry)) (d : Dir) (s : RedState) (h : RedMain argv conf solve rs d s (some 0)) :
    ∃ o st es, redParse argv = .ok o ∧ conf o.configFile = .ok st ∧ st.edges = .ok es ∧
      (∃ l1 l2, rs.getLast? = some (l1, l2) ∧ ∃ e ∈ l1, EndFile e) ∧
      (∀ (k : Nat) l1 l2, rs[k]? = some (l1, l2) → k + 1 < rs.length → ∀ e ∈ l2, RawFile e → Tried s.log e.name) ∧
      SaveRuns o.output o.base es (successes s.log) d s.dir := by
  generalize hz : some 0 = code at h
  cases h with
  | badArgs _ => cases hz
  | badConf _ _ => cases hz
  | lost _ _ _ _ => cases hz
  | @run o st es rs d s' status h1 h2 h3 h4 =>
    cases status with
    | running => cases hz
    | exited => cases hz
    | stopped =>
      refine ⟨o, st, es, h1, h2, h3, ?_, ?_, c47_output _ d rs s _ h4⟩
      · have key : ∀ (x : RedCtx) rs s0 s1 stt, MonRun x rs s0 s1 stt → stt = .stopped →
            ∃ l1 l2, rs.getLast? = some (l1, l2) ∧ ∃ e ∈ l1, EndFile e := by
          intro x rs s0 s1 stt hm
          induction hm with
          | running => intro h; cases h
          | exit _ _ => intro h; cases h
          | @stop l1 l2 s0 hn =>
            intro _
            obtain ⟨e, he, hn⟩ := List.any_eq_true.mp hn
            exact ⟨l1, l2, rfl, e, he, (isNxs_iff e).1 hn⟩
          | round _ _ _ ih =>
            intro h
            obtain ⟨l1, l2, hl, hx⟩ := ih h
            refine ⟨l1, l2, ?_, hx⟩
            rw [List.getLast?_cons, hl]
            rfl
        exact key _ _ _ _ _ h4 rfl
      · intro k l1 l2 hk hlast e he hr
        exact (c48_listed_partial _ d rs s h4 k l1 l2 hk hlast e he hr).1

/-- C79, code 1: nothing but the images of files processed with success has been written. -/
theorem c79_one (argv : List Arg) (conf : Path → Res Settings) (solve : List GaussRow → F64 × F64)
    (rs : List (List DirEntry × List DirEntry)) (d : Dir) (s : RedState) (h : RedMain argv conf solve rs d s (some 1)) :
    (s.dir = d ∧ s.log = []) ∨ ∃ o st es, redParse argv = .ok o ∧ conf o.configFile = .ok st ∧ st.edges = .ok es ∧
      SaveRuns o.output o.base es (successes s.log) d s.dir := by
  generalize hz : some 1 = code at h
  cases h with
  | badArgs _ => exact Or.inl ⟨rfl, rfl⟩
  | badConf _ _ => exact Or.inl ⟨rfl, rfl⟩
  | lost h1 h2 h3 h4 => exact Or.inr ⟨_, _, _, h1, h2, h3, c47_output _ d rs s _ h4⟩
  | run h1 h2 h3 h4 => exact Or.inr ⟨_, _, _, h1, h2, h3, c47_output _ d rs s _ h4⟩

/-- C79 is false: the code is 0 also when no file could be processed. -/
theorem c79_false_failed (conf : Path → Res Settings) (solve : List GaussRow → F64 × F64) (st : Settings) (es : List F64)
    (hconf : conf [] = .ok st) (hes : st.edges = .ok es) (d : Dir) (data : Bytes) :
    ∃ s, RedMain ["-ia".toList, "-ob".toList] conf solve
      [([], [⟨"a.tpx3".toList, true, some data⟩]), ([⟨"x.nxs.h5".toList, true, some []⟩], [])] d s (some 0) ∧
      successes s.log = [] ∧ s.dir = d ∧ Tried s.log "a.tpx3".toList := by
  have hp : redParse ["-ia".toList, "-ob".toList] = .ok { input := ['a'], output := ['b'] } := by decide +kernel
  have hraw : DirEntry.isRaw ⟨"a.tpx3".toList, true, some data⟩ = true :=
    (isRaw_iff _).2 ⟨rfl, ['a'], by simp, rfl⟩
  refine ⟨⟨[], d, [.failed "a.tpx3".toList]⟩, .run (st := .stopped) hp hconf hes (.round rfl (.failed (c' := Clock.zero) hraw ?_ rfl (by decide) .nil) (.stop (by decide))), rfl, rfl, Or.inr (by simp)⟩
  simp [RedState.init]

/-- A configuration that meets the hypotheses, and with it the run. -/
example : ∃ conf : Path → Res Settings, ∃ st es, conf [] = .ok st ∧ st.edges = .ok es ∧ es.length = 2 ∧
    ∃ rs s, RedMain ["-ia".toList, "-ob".toList] conf (fun _ => (.fin 0, .fin 0)) rs (fun _ => none) s (some 0) := by
  refine ⟨fun _ => .ok ⟨⟨.fin 5, 1, 75⟩, .fin 1, .ok [.fin 0, .fin 1]⟩, _, _, rfl, rfl, rfl, ?_⟩
  obtain ⟨s, h, -⟩ := c79_false_failed (fun _ => .ok ⟨⟨.fin 5, 1, 75⟩, .fin 1, .ok [.fin 0, .fin 1]⟩) (fun _ => (.fin 0, .fin 0))
    _ _ rfl rfl (fun _ => none) []
  exact ⟨_, s, h⟩

end Verif.Props
