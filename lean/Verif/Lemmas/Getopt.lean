import Verif.Model.Getopt
import Verif.Spec.CommandLine
import Verif.Props.Config

/-! # Lemmas about command lines -/

namespace Verif.Props

open Verif Verif.Spec

/-- A setting as a result of `getopt`. -/
def itemOf : CliSetting → OptItem
  | .switch c => .flag c
  | .value c v => .arg c v

/-- What `getopt` needs of the letters. -/
def LettersOk (al fl : List Char) : Prop := (∀ c ∈ al, c ∉ fl) ∧ '-' ∉ al ∧ '-' ∉ fl

variable {al fl : List Char}

theorem getoptWord_flags (fs rest : List Char) (hf : ∀ c ∈ fs, c ∈ fl) :
    getoptWord al fl (fs ++ rest) = (fs.map .flag ++ (getoptWord al fl rest).1, (getoptWord al fl rest).2) := by
  induction fs with
  | nil => rfl
  | cons a fs ih =>
    rw [List.cons_append, getoptWord, if_pos (hf a (by simp)), ih (fun c hc => hf c (by simp [hc]))]
    rfl

theorem getoptWord_arg (hl : LettersOk al fl) (c : Char) (v : List Char) (hc : c ∈ al) :
    getoptWord al fl (c :: v) = if v = [] then ([], some c) else ([.arg c v], none) := by
  rw [getoptWord, if_neg (hl.1 c hc), if_pos hc]

/-- A word without a bad letter: switches only, or switches and a letter with a value. -/
theorem getoptWord_cases (cs : List Char) (h : ∀ c, .bad c ∉ (getoptWord al fl cs).1) :
    (∀ c ∈ cs, c ∈ fl) ∨ ∃ fs c v, cs = fs ++ c :: v ∧ (∀ c ∈ fs, c ∈ fl) ∧ c ∈ al := by
  induction cs with
  | nil => left; simp
  | cons a cs ih =>
    rw [getoptWord] at h
    by_cases h1 : a ∈ fl
    · rw [if_pos h1] at h
      rcases ih (fun c hc => h c (by simp [hc])) with h2 | ⟨fs, c, v, rfl, h3, h4⟩
      · left; intro c hc; rcases List.mem_cons.mp hc with rfl | hc
        · exact h1
        · exact h2 c hc
      · right
        refine ⟨a :: fs, c, v, rfl, ?_, h4⟩
        intro c hc; rcases List.mem_cons.mp hc with rfl | hc
        · exact h1
        · exact h3 c hc
    · rw [if_neg h1] at h
      by_cases h2 : a ∈ al
      · right; exact ⟨[], a, cs, rfl, by simp, h2⟩
      · rw [if_neg h2] at h
        exact absurd (by simp) (h a)

theorem getoptGo_dash (c : Char) (cs : List Char) (as : List Arg) (h : c :: cs ≠ ['-']) :
    getoptGo al fl none (('-' :: c :: cs) :: as) =
      (getoptWord al fl (c :: cs)).1 ++ getoptGo al fl (getoptWord al fl (c :: cs)).2 as := by
  rw [getoptGo, if_neg]
  intro e
  injection e with _ e
  exact h e

theorem getoptGo_plain (a : Arg) (as : List Arg) (h : PlainWord a) : getoptGo al fl none (a :: as) = getoptGo al fl none as := by
  have hno : ∀ c cs, a ≠ '-' :: c :: cs := by
    rintro c cs rfl
    simp [PlainWord] at h
  rw [getoptGo]
  · rw [if_neg (hno _ _)]
  · exact hno

/-- What is written down is what `getopt` returns. -/
theorem getopt_written (hl : LettersOk al fl) {ss : List CliSetting} {argv : List Arg} (h : Written al fl ss argv) :
    getoptGo al fl none argv = ss.map itemOf := by
  induction h with
  | nil => rfl
  | plain a ha _ ih => rw [getoptGo_plain a _ ha, ih]
  | flags cs hne hcs _ ih =>
    obtain ⟨c, cs, rfl⟩ := List.exists_cons_of_ne_nil hne
    have hc := hcs c (by simp)
    rw [getoptGo_dash _ _ _ (by intro e; injection e with e _; subst e; exact hl.2.2 hc)]
    have := getoptWord_flags (al := al) (c :: cs) [] hcs
    rw [List.append_nil] at this
    rw [this]
    simp [getoptWord, itemOf, ih]
  | separate cs c v hcs hc _ ih =>
    have h2 := getoptWord_flags (al := al) cs [c] hcs
    rw [getoptWord_arg hl c [] hc, if_pos rfl] at h2
    obtain ⟨d, ds, hd⟩ : ∃ d ds, cs ++ [c] = d :: ds := List.exists_cons_of_ne_nil (by simp)
    have hne : cs ++ [c] ≠ ['-'] := by
      intro e
      have : '-' ∈ cs ++ [c] := by rw [e]; simp
      rcases List.mem_append.mp this with h | h
      · exact hl.2.2 (hcs _ h)
      · rw [List.mem_singleton] at h; subst h; exact hl.2.1 hc
    rw [hd] at h2 hne ⊢
    rw [getoptGo_dash _ _ _ hne, h2]
    simp [getoptGo, ih, itemOf]
  | attached cs c v hcs hc hv _ ih =>
    have h2 := getoptWord_flags (al := al) cs (c :: v) hcs
    rw [getoptWord_arg hl c v hc, if_neg hv] at h2
    obtain ⟨d, ds, hd⟩ : ∃ d ds, cs ++ c :: v = d :: ds := List.exists_cons_of_ne_nil (by simp)
    have hne : cs ++ c :: v ≠ ['-'] := by
      intro e
      have := congrArg List.length e
      rw [List.length_append, List.length_cons, List.length_singleton] at this
      exact hv (List.length_eq_zero_iff.mp (by omega))
    rw [hd] at h2 hne ⊢
    rw [getoptGo_dash _ _ _ hne, h2]
    simp [ih, itemOf]
  | stop rest => rw [getoptGo, if_pos rfl]; rfl

/-- A command line on which `getopt` reports no error writes down some settings. -/
theorem written_of_getopt (hl : LettersOk al fl) (n : Nat) (argv : List Arg) (hn : argv.length ≤ n) (h : ∀ c, .bad c ∉ getoptGo al fl none argv) :
    ∃ ss, Written al fl ss argv := by
  induction n generalizing argv with
  | zero =>
    have : argv = [] := List.length_eq_zero_iff.mp (by omega)
    subst this
    exact ⟨[], .nil⟩
  | succ n ih =>
    match argv, hn, h with
    | [], _, _ => exact ⟨[], .nil⟩
    | a :: as, hn, h =>
      rw [List.length_cons] at hn
      by_cases hp : PlainWord a
      · rw [getoptGo_plain a as hp] at h
        obtain ⟨ss, hs⟩ := ih as (by omega) h
        exact ⟨ss, .plain a hp hs⟩
      · match a, hp, h with
        | [], hp, _ => exact absurd (Or.inl (by simp)) hp
        | [c], hp, _ =>
          exfalso
          by_cases hc : c = '-'
          · exact hp (Or.inr (by rw [hc]))
          · exact hp (Or.inl (by simpa using hc))
        | c :: d :: ds, hp, h =>
          have hc : c = '-' := by
            by_contra hc
            exact hp (Or.inl (by simpa using hc))
          subst hc
          by_cases hs : d :: ds = ['-']
          · rw [hs]; exact ⟨[], .stop as⟩
          · rw [getoptGo_dash _ _ _ hs] at h
            rcases getoptWord_cases (d :: ds) (fun c hc => h c (List.mem_append_left _ hc)) with h1 | ⟨fs, c, v, h1, h2, h3⟩
            · have e := getoptWord_flags (al := al) (d :: ds) [] h1
              rw [List.append_nil] at e
              rw [e] at h
              obtain ⟨ss, hs⟩ := ih as (by omega) (fun c hc => h c (List.mem_append_right _ hc))
              exact ⟨_, .flags _ (by simp) h1 hs⟩
            · have e := getoptWord_flags (al := al) fs (c :: v) h2
              rw [getoptWord_arg hl c v h3] at e
              rw [h1, e] at h
              rw [h1]
              by_cases hv : v = []
              · subst hv
                rw [if_pos rfl] at h
                match as, hn, h with
                | [], _, h => exact absurd (List.mem_append_right _ (by simp [getoptGo])) (h c)
                | v :: as, hn, h =>
                  obtain ⟨ss, hs⟩ := ih as (by rw [List.length_cons] at hn; omega)
                    (fun c hc => h c (List.mem_append_right _ (by rw [getoptGo]; exact List.mem_cons_of_mem _ hc)))
                  exact ⟨_, .separate fs c v h2 h3 hs⟩
              · rw [if_neg hv] at h
                obtain ⟨ss, hs⟩ := ih as (by omega) (fun c hc => h c (List.mem_append_right _ hc))
                exact ⟨_, .attached fs c v h2 h3 hv hs⟩

/-- The letter is one of those of the usage text. -/
def _root_.Verif.Spec.CliSetting.Known (al fl : List Char) : CliSetting → Prop
  | .switch c => c ∈ fl
  | .value c _ => c ∈ al

theorem Written.known {ss : List CliSetting} {argv : List Arg} (h : Written al fl ss argv) : ∀ a ∈ ss, a.Known al fl := by
  have sw : ∀ cs : List Char, (∀ c ∈ cs, c ∈ fl) → ∀ a ∈ cs.map CliSetting.switch, a.Known al fl := by
    intro cs h a ha
    obtain ⟨c, hc, rfl⟩ := List.mem_map.mp ha
    exact h c hc
  induction h with
  | nil => simp
  | plain a _ _ ih => exact ih
  | flags cs _ hcs _ ih =>
    intro a ha
    rcases List.mem_append.mp ha with ha | ha
    · exact sw cs hcs a ha
    · exact ih a ha
  | separate cs c v hcs hc _ ih =>
    intro a ha
    rcases List.mem_append.mp ha with ha | ha
    · exact sw cs hcs a ha
    · rcases List.mem_cons.mp ha with rfl | ha
      · exact hc
      · exact ih a ha
  | attached cs c v hcs hc _ _ ih =>
    intro a ha
    rcases List.mem_append.mp ha with ha | ha
    · exact sw cs hcs a ha
    · rcases List.mem_cons.mp ha with rfl | ha
      · exact hc
      · exact ih a ha
  | stop _ => simp

theorem stoull_integer (v : List Char) (n : Nat) (h : Integer v n) (hn : n < 2 ^ 64) : stoull v = .ok n := by
  obtain ⟨h1, h2, h3⟩ := h
  obtain ⟨c, cs, rfl⟩ := List.exists_cons_of_ne_nil h1
  have hc := h2 c (by simp)
  have hsp : isSpace c = false := by
    have : isDigit c = true := (isDigit_iff c).mpr hc
    by_contra hs
    rw [Bool.not_eq_false] at hs
    unfold isSpace at hs
    simp only [Bool.decide_or, Bool.or_eq_true, decide_eq_true_eq] at hs
    rcases hs with rfl | rfl | rfl | rfl | rfl | rfl <;> revert this <;> decide
  have hsg := takeSign_digit hc cs
  have htw : (c :: cs).takeWhile isDigit = c :: cs := by
    have := (takeWhile_split (p := isDigit) (a := c :: cs) (b := []) (fun x hx => (isDigit_iff x).mpr (h2 x hx)) (by simp)).1
    rwa [List.append_nil] at this
  unfold stoull
  rw [List.dropWhile_cons_of_neg (by rw [hsp]; simp), hsg]
  simp only [htw, digitsVal_eq, h3]
  rw [if_neg (by simp), if_neg (by omega)]
  simp

theorem lastValue_cons (a : CliSetting) (ss : List CliSetting) (c : Char) (d : List Char) :
    (lastValue (a :: ss) c).getD d = (lastValue ss c).getD ((a.valueFor c).getD d) := by
  unfold lastValue
  rw [List.filterMap_cons]
  cases h : a.valueFor c with
  | none => simp
  | some v => simp [List.getLast?_cons]

theorem lastValue_cons_map (a : CliSetting) (ss : List CliSetting) (c : Char) (f : List Char → Nat) (d : Nat) :
    ((lastValue (a :: ss) c).map f).getD d = ((lastValue ss c).map f).getD (((a.valueFor c).map f).getD d) := by
  unfold lastValue
  rw [List.filterMap_cons]
  cases h : a.valueFor c with
  | none => simp
  | some v =>
    simp only [List.getLast?_cons, Option.map_some, Option.getD_some]
    cases (ss.filterMap (CliSetting.valueFor c)).getLast? <;> rfl

theorem mem_of_lastValue {ss : List CliSetting} {c : Char} {v : List Char} (hl : lastValue ss c = some v) :
    .value c v ∈ ss := by
  have := List.mem_of_getLast? hl
  obtain ⟨a, ha, hav⟩ := List.mem_filterMap.mp this
  cases a with
  | switch _ => simp [CliSetting.valueFor] at hav
  | value c' v' =>
    simp only [CliSetting.valueFor] at hav
    split_ifs at hav with hcc
    injection hav with hav
    subst hcc hav
    exact ha

end Verif.Props
