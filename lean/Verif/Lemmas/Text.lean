import Verif.Model.Text
import Verif.Spec.Text
import Verif.Lemmas.F64
import Mathlib.Data.Int.Log
import Mathlib.Data.List.TakeWhile
import Mathlib.Tactic.Linarith
import Mathlib.Tactic.FieldSimp

/-! # Reading back what was written -/

namespace Verif

open Verif.Spec

/-! ### Fields -/

theorem fields_ne_nil (sep : Char) (l : List Char) : fields sep l ≠ [] := by
  cases l with
  | nil => simp [fields]
  | cons c cs =>
    rw [fields]
    split_ifs
    · simp
    · split <;> simp

theorem fields_single {sep : Char} {l : List Char} (h : sep ∉ l) : fields sep l = [l] := by
  induction l with
  | nil => rfl
  | cons c cs ih =>
    rw [List.mem_cons, not_or] at h
    rw [fields, if_neg (fun e => h.1 e.symm), ih h.2]

theorem fields_append {sep : Char} {a : List Char} (b : List Char) (h : sep ∉ a) :
    fields sep (a ++ sep :: b) = a :: fields sep b := by
  induction a with
  | nil => rw [List.nil_append, fields, if_pos rfl]
  | cons c cs ih =>
    rw [List.mem_cons, not_or] at h
    rw [List.cons_append, fields, if_neg (fun e => h.1 e.symm), ih h.2]

/-! ### Digits -/

theorem digitsVal_eq (acc : Nat) (l : List Char) (h : ∀ c ∈ l, c.isDigit = true) :
    digitsVal? acc l = some (Nat.ofDigitChars 10 l acc) := by
  induction l generalizing acc with
  | nil => rfl
  | cons c cs ih =>
    have hc := Char.isDigit_iff_toNat.mp (h c (by simp))
    have hd : digitVal? c = some (c.toNat - '0'.toNat) := by
      unfold digitVal?
      rw [if_pos]
      exact ⟨UInt32.le_iff_toNat_le.mpr hc.1, UInt32.le_iff_toNat_le.mpr hc.2⟩
    rw [digitsVal?, hd, Nat.ofDigitChars_cons]
    exact ih _ (fun c hc => h c (by simp [hc]))

theorem readNat_digits (l : List Char) (hne : l ≠ []) (h : ∀ c ∈ l, c.isDigit = true) :
    readNat? l = some (Nat.ofDigitChars 10 l 0) := by
  cases l with
  | nil => exact absurd rfl hne
  | cons c cs => exact digitsVal_eq 0 (c :: cs) h

theorem natText_digits (n : Nat) : ∀ c ∈ natText n, c.isDigit = true := fun _ hc =>
  Nat.isDigit_of_mem_toDigits (by norm_num) (by norm_num) hc

theorem natText_ne_nil (n : Nat) : natText n ≠ [] := by
  have := Nat.length_toDigits_pos (b := 10) (n := n)
  intro h
  unfold natText at h
  rw [h] at this
  simp at this

theorem natText_val (n : Nat) : Nat.ofDigitChars 10 (natText n) 0 = n :=
  Nat.ofDigitChars_toDigits (by norm_num) (by norm_num)

theorem readNat_natText (n : Nat) : readNat? (natText n) = some n := by
  rw [readNat_digits _ (natText_ne_nil n) (natText_digits n), natText_val]

theorem not_mem_digits {c : Char} {l : List Char} (hc : c.isDigit = false) (h : ∀ c ∈ l, c.isDigit = true) : c ∉ l := by
  intro hm
  rw [h c hm] at hc
  simp at hc

theorem readInt_intText (n : Int) : readInt? (intText n) = some n := by
  unfold intText
  split_ifs with hn
  · rw [readInt?, if_pos rfl, readNat_natText]
    simp only [Option.map_some, Option.some.injEq]
    omega
  · have h1 := natText_digits n.natAbs
    have h2 := readNat_natText n.natAbs
    have h3 := natText_ne_nil n.natAbs
    generalize natText n.natAbs = l at h1 h2 h3
    cases l with
    | nil => exact absurd rfl h3
    | cons c cs =>
      have hc : c ≠ '-' := by
        rintro rfl
        exact absurd (h1 '-' (by simp)) (by decide)
      rw [readInt?, if_neg hc, h2]
      simp only [Option.map_some, Option.some.injEq]
      omega

/-! ### Decimal fractions -/

theorem stripZeros_eq (l : List Char) : ∃ k, l = stripZeros l ++ List.replicate k '0' := by
  refine ⟨(l.reverse.takeWhile (· = '0')).length, ?_⟩
  have h := List.takeWhile_append_dropWhile (p := fun c => decide (c = '0')) (l := l.reverse)
  have hr : l.reverse.takeWhile (fun c => decide (c = '0')) =
      List.replicate (l.reverse.takeWhile (fun c => decide (c = '0'))).length '0' := by
    apply List.eq_replicate_of_mem
    intro c hc
    simpa using List.mem_takeWhile_imp hc
  have h2 := congrArg List.reverse h
  rw [List.reverse_append, List.reverse_reverse] at h2
  conv_lhs => rw [← h2]
  unfold stripZeros
  congr 1
  conv_lhs => rw [hr]
  rw [List.reverse_replicate]

theorem stripZeros_mem {l : List Char} {c : Char} (h : c ∈ stripZeros l) : c ∈ l := by
  obtain ⟨k, hk⟩ := stripZeros_eq l
  rw [hk]
  exact List.mem_append_left _ h

theorem fracText_mem {l : List Char} {c : Char} (h : c ∈ fracText l) : c = '.' ∨ c ∈ l := by
  unfold fracText at h
  split_ifs at h
  · simp at h
  · rcases List.mem_cons.mp h with h | h
    · left; exact h
    · right; exact stripZeros_mem h

theorem readMantissa_text (a f : List Char) (hne : a ≠ []) (ha : ∀ c ∈ a, c.isDigit = true) (hf : ∀ c ∈ f, c.isDigit = true) :
    ∃ m, readMantissa? (a ++ fracText f) = some m ∧
      (m.1 : ℚ) / 10 ^ m.2 = (Nat.ofDigitChars 10 (a ++ f) 0 : ℚ) / 10 ^ f.length := by
  have hdot : '.' ∉ a := not_mem_digits (by decide) ha
  obtain ⟨k, hk⟩ := stripZeros_eq f
  have hlen := congrArg List.length hk
  rw [List.length_append, List.length_replicate] at hlen
  have hval : (Nat.ofDigitChars 10 (a ++ f) 0 : ℚ) / 10 ^ f.length =
      (Nat.ofDigitChars 10 (a ++ stripZeros f) 0 : ℚ) / 10 ^ (stripZeros f).length := by
    have h1 : Nat.ofDigitChars 10 (a ++ f) 0 = Nat.ofDigitChars 10 (a ++ (stripZeros f ++ List.replicate k '0')) 0 := by
      rw [← hk]
    rw [hlen, h1, ← List.append_assoc, Nat.ofDigitChars_append, Nat.ofDigitChars_replicate_zero, pow_add]
    push_cast
    have : (10 : ℚ) ^ k ≠ 0 := pow_ne_zero _ (by norm_num)
    field_simp
  rw [hval]
  clear hval hlen hk
  have hs : ∀ c ∈ stripZeros f, c.isDigit = true := fun c hc => hf c (stripZeros_mem hc)
  unfold fracText readMantissa?
  split_ifs with h0
  · rw [List.append_nil, fields_single hdot]
    simp only
    rw [readNat_digits a hne ha, h0]
    exact ⟨_, rfl, by simp⟩
  · rw [fields_append _ hdot, fields_single (not_mem_digits (by decide) hs)]
    simp only
    rw [if_neg (by simp [hne, h0]), readNat_digits (a ++ stripZeros f) (by simp [hne])
      (fun c hc => (List.mem_append.mp hc).elim (ha c) (hs c))]
    exact ⟨_, rfl, rfl⟩

theorem no_e {a f : List Char} (ha : ∀ c ∈ a, c.isDigit = true) (hf : ∀ c ∈ f, c.isDigit = true) :
    'e' ∉ a ++ fracText f := by
  intro h
  rcases List.mem_append.mp h with h | h
  · exact not_mem_digits (by decide) ha h
  · rcases fracText_mem h with h | h
    · simp at h
    · exact not_mem_digits (by decide) hf h

theorem readUnsigned_fixed (a f : List Char) (hne : a ≠ []) (ha : ∀ c ∈ a, c.isDigit = true)
    (hf : ∀ c ∈ f, c.isDigit = true) :
    readUnsigned? (a ++ fracText f) = some ((Nat.ofDigitChars 10 (a ++ f) 0 : ℚ) / 10 ^ f.length) := by
  obtain ⟨m, hm, hv⟩ := readMantissa_text a f hne ha hf
  unfold readUnsigned?
  rw [fields_single (no_e ha hf)]
  simp only
  rw [hm, Option.map_some, hv]

theorem readExponent_text (x : Int) : ∃ cs, expText x = 'e' :: cs ∧ 'e' ∉ cs ∧ readExponent? cs = some x := by
  refine ⟨_, rfl, ?_, ?_⟩
  · intro h
    rcases List.mem_cons.mp h with h | h
    · split_ifs at h <;> simp at h
    · rcases List.mem_append.mp h with h | h
      · have := List.eq_of_mem_replicate h
        simp at this
      · exact not_mem_digits (by decide) (natText_digits _) h
  · have hr : readNat? (List.replicate (2 - (natText x.natAbs).length) '0' ++ natText x.natAbs) = some x.natAbs := by
      rw [readNat_digits]
      · rw [Nat.ofDigitChars_append, Nat.ofDigitChars_replicate_zero, Nat.mul_zero, natText_val]
      · simp [natText_ne_nil]
      · intro c hc
        rcases List.mem_append.mp hc with hc | hc
        · rw [List.eq_of_mem_replicate hc]; decide
        · exact natText_digits _ c hc
    split_ifs with hx
    · rw [readExponent?, if_pos rfl, hr]
      simp only [Option.map_some, Option.some.injEq]
      omega
    · rw [readExponent?, if_neg (by decide), if_pos rfl, hr]
      simp only [Option.map_some, Option.some.injEq]
      omega

theorem readUnsigned_exp (a f : List Char) (x : Int) (hne : a ≠ []) (ha : ∀ c ∈ a, c.isDigit = true)
    (hf : ∀ c ∈ f, c.isDigit = true) :
    readUnsigned? (a ++ fracText f ++ expText x) = some ((Nat.ofDigitChars 10 (a ++ f) 0 : ℚ) / 10 ^ f.length * 10 ^ x) := by
  obtain ⟨m, hm, hv⟩ := readMantissa_text a f hne ha hf
  obtain ⟨cs, he, hne', hx⟩ := readExponent_text x
  unfold readUnsigned?
  rw [he, fields_append _ (no_e ha hf), fields_single hne']
  simp only
  rw [hm, hx]
  simp only
  rw [hv]

/-! ### Six digits -/

theorem sixDigits_spec (q : ℚ) (hq : 0 < q) :
    100000 ≤ (sixDigits q).1 ∧ (sixDigits q).1 < 1000000 ∧
      ∃ e : Int, (e = (sixDigits q).2 - 5 ∨ e = (sixDigits q).2 - 6) ∧
        |((sixDigits q).1 : ℚ) * 10 ^ ((sixDigits q).2 - 5) - q| ≤ 10 ^ e / 2 ∧ (10 : ℚ) ^ (e + 5) ≤ q ∧ q < 10 ^ (e + 6) := by
  have hpos : ∀ e : ℤ, (0 : ℚ) < 10 ^ e := fun e => zpow_pos (by norm_num) e
  have h1 : (10 : ℚ) ^ Int.log 10 q ≤ q := by
    have := Int.zpow_log_le_self (b := 10) (by norm_num) hq
    exact_mod_cast this
  have h2 : q < (10 : ℚ) ^ (Int.log 10 q + 1) := by
    have := Int.lt_zpow_succ_log_self (b := 10) (by norm_num) q
    exact_mod_cast this
  generalize hx : Int.log 10 q = x at h1 h2
  have hd := hpos (x - 5)
  have e5 : (10 : ℚ) ^ x = 100000 * 10 ^ (x - 5) := by
    have : x = (x - 5) + 5 := by ring
    conv_lhs => rw [this, zpow_add₀ (by norm_num)]
    norm_num
    ring
  have e6 : (10 : ℚ) ^ (x + 1) = 1000000 * 10 ^ (x - 5) := by
    have : x + 1 = (x - 5) + 6 := by ring
    rw [this, zpow_add₀ (by norm_num)]
    norm_num
    ring
  have lo : (100000 : ℚ) ≤ q / 10 ^ (x - 5) := by rw [le_div_iff₀ hd, ← e5]; exact h1
  have hi : q / 10 ^ (x - 5) ≤ 1000000 := by rw [div_le_iff₀ hd, ← e6]; exact h2.le
  have rlo : 100000 ≤ roundNE (q / 10 ^ (x - 5)) := by
    have := roundNE_mono lo
    have e : roundNE (100000 : ℚ) = 100000 := by exact_mod_cast roundNE_int 100000
    rwa [e] at this
  have rhi : roundNE (q / 10 ^ (x - 5)) ≤ 1000000 := by
    have := roundNE_mono hi
    have e : roundNE (1000000 : ℚ) = 1000000 := by exact_mod_cast roundNE_int 1000000
    rwa [e] at this
  have herr := abs_roundNE_sub_le (q / 10 ^ (x - 5))
  have hmul : |(roundNE (q / 10 ^ (x - 5)) : ℚ) * 10 ^ (x - 5) - q| ≤ 10 ^ (x - 5) / 2 := by
    have e : (roundNE (q / 10 ^ (x - 5)) : ℚ) * 10 ^ (x - 5) - q =
        ((roundNE (q / 10 ^ (x - 5)) : ℚ) - q / 10 ^ (x - 5)) * 10 ^ (x - 5) := by
      rw [sub_mul, div_mul_cancel₀ _ hd.ne']
    rw [e, abs_mul, abs_of_pos hd]
    calc _ ≤ 1 / 2 * (10 : ℚ) ^ (x - 5) := mul_le_mul_of_nonneg_right herr hd.le
      _ = _ := by ring
  have b1 : (10 : ℚ) ^ (x - 5 + 5) ≤ q := by rw [show x - 5 + 5 = x by ring]; exact h1
  have b2 : q < (10 : ℚ) ^ (x - 5 + 6) := by rw [show x - 5 + 6 = x + 1 by ring]; exact h2
  unfold sixDigits
  simp only [hx]
  have hcast : (((roundNE (q / 10 ^ (x - 5))).toNat : ℕ) : ℚ) = (roundNE (q / 10 ^ (x - 5)) : ℚ) := by
    have : ((roundNE (q / 10 ^ (x - 5))).toNat : ℤ) = roundNE (q / 10 ^ (x - 5)) := Int.toNat_of_nonneg (by omega)
    exact_mod_cast this
  split_ifs with hm
  · refine ⟨by norm_num, by norm_num, x - 5, Or.inr (by simp only; ring), ?_, b1, b2⟩
    have hm' : (roundNE (q / 10 ^ (x - 5)) : ℚ) = 1000000 := by rw [← hcast, hm]; norm_num
    rw [hm'] at hmul
    have e : ((100000 : ℕ) : ℚ) * 10 ^ (x + 1 - 5) = 1000000 * 10 ^ (x - 5) := by
      rw [show x + 1 - 5 = (x - 5) + 1 by ring, zpow_add₀ (by norm_num)]
      push_cast
      ring
    simp only
    rw [e]
    exact hmul
  · simp only
    refine ⟨by omega, by omega, x - 5, Or.inl rfl, ?_, b1, b2⟩
    rw [hcast]
    exact hmul

/-- The value of the six digits. -/
def sixValue (q : ℚ) : ℚ := ((sixDigits q).1 : ℚ) * 10 ^ ((sixDigits q).2 - 5)

theorem natText_length_six {m : Nat} (h1 : 100000 ≤ m) (h2 : m < 1000000) : (natText m).length = 6 := by
  have a := (Nat.length_toDigits_le_iff (b := 10) (n := m) (k := 6) (by norm_num) (by norm_num)).mpr (by omega)
  have b := fun h => (Nat.length_toDigits_le_iff (b := 10) (n := m) (k := 5) (by norm_num) (by norm_num)).mp h
  unfold natText
  by_contra hne
  have := b (by omega)
  omega

theorem readUnsigned_posText (q : ℚ) (hq : 0 < q) : readUnsigned? (posText q) = some (sixValue q) := by
  obtain ⟨h1, h2, -⟩ := sixDigits_spec q hq
  have hlen := natText_length_six h1 h2
  have hdig := natText_digits (sixDigits q).1
  unfold posText sixValue
  have hval := natText_val (sixDigits q).1
  have hne := natText_ne_nil (sixDigits q).1
  generalize (sixDigits q).1 = m at *
  generalize (sixDigits q).2 = x at *
  simp only
  have hz : ∀ (k : Nat), ((m : ℕ) : ℚ) / 10 ^ k = m * 10 ^ (-(k : ℤ)) := by
    intro k
    rw [zpow_neg, zpow_natCast, div_eq_mul_inv]
  split_ifs with c1 c2
  · rw [readUnsigned_fixed _ _ _ (fun c hc => hdig c (List.mem_of_mem_take hc)) (fun c hc => hdig c (List.mem_of_mem_drop hc)),
      List.take_append_drop, hval, List.length_drop, hlen, hz]
    · congr 3
      omega
    · intro h
      rw [List.take_eq_nil_iff] at h
      rcases h with h | h
      · omega
      · exact hne h
  · have := readUnsigned_fixed ['0'] (List.replicate ((-x).toNat - 1) '0' ++ natText m) (by simp) (by decide) (by
      intro c hc
      rcases List.mem_append.mp hc with hc | hc
      · rw [List.eq_of_mem_replicate hc]; decide
      · exact hdig c hc)
    rw [List.singleton_append] at this
    rw [this, List.length_append, List.length_replicate, hlen]
    have hv : Nat.ofDigitChars 10 (['0'] ++ (List.replicate ((-x).toNat - 1) '0' ++ natText m)) 0 = m := by
      rw [← List.append_assoc, Nat.ofDigitChars_append, Nat.ofDigitChars_append, Nat.ofDigitChars_replicate_zero]
      have : Nat.ofDigitChars 10 ['0'] 0 = 0 := by decide
      rw [this, Nat.mul_zero, hval]
    rw [hv, hz]
    congr 3
    omega
  · rw [readUnsigned_exp _ _ _ _ (fun c hc => hdig c (List.mem_of_mem_take hc)) (fun c hc => hdig c (List.mem_of_mem_drop hc)),
      List.take_append_drop, hval, List.length_drop, hlen, hz, mul_assoc, ← zpow_add₀ (by norm_num)]
    · congr 3
      ring
    · intro h
      rw [List.take_eq_nil_iff] at h
      rcases h with h | h
      · omega
      · exact hne h

theorem posText_head (q : ℚ) (hq : 0 < q) : ∃ c cs, posText q = c :: cs ∧ c.isDigit = true := by
  obtain ⟨h1, h2, -⟩ := sixDigits_spec q hq
  have hlen := natText_length_six h1 h2
  have hdig := natText_digits (sixDigits q).1
  unfold posText
  generalize (sixDigits q).1 = m at *
  generalize (sixDigits q).2 = x at *
  simp only
  cases hl : natText m with
  | nil => rw [hl] at hlen; simp at hlen
  | cons c cs =>
    have hc : c.isDigit = true := hdig c (by rw [hl]; simp)
    split_ifs
    · exact ⟨c, _, rfl, hc⟩
    · exact ⟨'0', _, rfl, by decide⟩
    · exact ⟨c, _, rfl, hc⟩

/-- Value that the text of a number stands for. -/
def printedValue (q : ℚ) : ℚ := if q = 0 then 0 else if q < 0 then -sixValue (-q) else sixValue q

theorem readDecimal_doubleText (q : ℚ) : readDecimal? (doubleText (.fin q)) = some (printedValue q) := by
  unfold doubleText printedValue
  simp only
  split_ifs with h0 h1
  · decide +kernel
  · rw [readDecimal?, if_pos rfl, readUnsigned_posText _ (by linarith)]
    rfl
  · have hq : 0 < q := lt_of_le_of_ne (not_lt.mp h1) (Ne.symm h0)
    obtain ⟨c, cs, he, hc⟩ := posText_head q hq
    have := readUnsigned_posText q hq
    rw [he] at this ⊢
    have hm : c ≠ '-' := by
      rintro rfl
      exact absurd hc (by decide)
    rw [readDecimal?, if_neg hm]
    exact this

theorem sixValue_spec (q : ℚ) (hq : 0 < q) : SixSignificant q (sixValue q) ∧ |sixValue q - q| ≤ q / 200000 := by
  obtain ⟨h1, h2, e, he, herr, hlo, hhi⟩ := sixDigits_spec q hq
  have hpos : (0 : ℚ) < 10 ^ e := zpow_pos (by norm_num) e
  constructor
  · right
    rcases he with he | he
    · refine ⟨(sixDigits q).1, e, ?_, ?_, ?_, herr⟩
      · rw [abs_of_nonneg (by omega)]; exact_mod_cast h1
      · rw [abs_of_nonneg (by omega)]; have : (sixDigits q).1 ≤ 1000000 := by omega
        exact_mod_cast this
      · unfold sixValue; rw [he]; push_cast; rfl
    · have hval : ((sixDigits q).1 : ℚ) * 10 ^ ((sixDigits q).2 - 5) = 10 * ((sixDigits q).1 : ℚ) * 10 ^ e := by
        rw [he, show (sixDigits q).2 - 5 = ((sixDigits q).2 - 6) + 1 by ring, zpow_add₀ (by norm_num)]
        ring
      refine ⟨10 * (sixDigits q).1, e, ?_, ?_, ?_, herr⟩
      · rw [abs_of_nonneg (by omega)]; omega
      · rw [hval, abs_le] at herr
        have h6 : (10 : ℚ) ^ (e + 6) = 1000000 * 10 ^ e := by
          rw [zpow_add₀ (by norm_num)]; norm_num; ring
        rw [h6] at hhi
        have hlt : (10 * ((sixDigits q).1 : ℚ)) * 10 ^ e < (1000001 : ℚ) * 10 ^ e := by nlinarith [herr.2]
        have := lt_of_mul_lt_mul_right hlt hpos.le
        have h7 : 10 * (sixDigits q).1 < 1000001 := by exact_mod_cast this
        rw [abs_of_nonneg (by omega)]
        omega
      · unfold sixValue
        rw [hval]
        push_cast
        rfl
  · refine herr.trans ?_
    have : (10 : ℚ) ^ (e + 5) = 100000 * 10 ^ e := by
      rw [zpow_add₀ (by norm_num)]; norm_num; ring
    rw [this] at hlo
    linarith

theorem printedValue_spec (q : ℚ) : SixSignificant q (printedValue q) ∧ |printedValue q - q| ≤ |q| / 200000 := by
  unfold printedValue
  split_ifs with h0 h1
  · subst h0
    exact ⟨Or.inl ⟨rfl, rfl⟩, by simp⟩
  · obtain ⟨hs, he⟩ := sixValue_spec (-q) (by linarith)
    constructor
    · rcases hs with ⟨hz, _⟩ | ⟨m, e, a, b, c, d⟩
      · exact absurd (neg_eq_zero.mp hz) h0
      · refine Or.inr ⟨-m, e, by rwa [abs_neg], by rwa [abs_neg], by rw [c]; push_cast; ring, ?_⟩
        rw [show -sixValue (-q) - q = -(sixValue (-q) - -q) by ring, abs_neg]
        exact d
    · rw [show -sixValue (-q) - q = -(sixValue (-q) - -q) by ring, abs_neg, abs_of_neg h1]
      exact he
  · have hq : 0 < q := lt_of_le_of_ne (not_lt.mp h1) (Ne.symm h0)
    obtain ⟨hs, he⟩ := sixValue_spec q hq
    rw [abs_of_pos hq]
    exact ⟨hs, he⟩

/-! ### No separators inside the fields -/

theorem text_no_sep {c : Char} (h0 : c.isDigit = false) (h1 : c ≠ '.') (h2 : c ≠ 'e') (h3 : c ≠ '-') (h4 : c ≠ '+')
    (q : ℚ) : c ∉ doubleText (.fin q) := by
  have hn : ∀ n, c ∉ natText n := fun n => not_mem_digits h0 (natText_digits n)
  have hrep : ∀ n, c ∉ List.replicate n '0' := by
    intro n h
    have := List.eq_of_mem_replicate h
    subst this
    simp at h0
  have hfrac : ∀ l : List Char, c ∉ l → c ∉ fracText l := by
    intro l hl h
    rcases fracText_mem h with h | h
    · exact h1 h
    · exact hl h
  have hp : ∀ q, c ∉ posText q := by
    intro q
    unfold posText
    simp only
    split_ifs
    · intro h
      rcases List.mem_append.mp h with h | h
      · exact hn _ (List.mem_of_mem_take h)
      · exact hfrac _ (fun h => hn _ (List.mem_of_mem_drop h)) h
    · intro h
      rcases List.mem_cons.mp h with h | h
      · subst h; simp at h0
      · refine hfrac _ (fun h => ?_) h
        rcases List.mem_append.mp h with h | h
        · exact hrep _ h
        · exact hn _ h
    · intro h
      rcases List.mem_append.mp h with h | h
      · rcases List.mem_append.mp h with h | h
        · exact hn _ (List.mem_of_mem_take h)
        · exact hfrac _ (fun h => hn _ (List.mem_of_mem_drop h)) h
      · unfold expText at h
        rcases List.mem_cons.mp h with h | h
        · exact h2 h
        · rcases List.mem_cons.mp h with h | h
          · split_ifs at h
            · exact h3 h
            · exact h4 h
          · rcases List.mem_append.mp h with h | h
            · exact hrep _ h
            · exact hn _ h
  unfold doubleText
  simp only
  split_ifs
  · intro h
    have := List.mem_singleton.mp h
    subst this
    simp at h0
  · intro h
    rcases List.mem_cons.mp h with h | h
    · exact h3 h
    · exact hp _ h
  · exact hp _

/-! ### Tables -/

theorem fields_lines {α : Type} (f : α → List Char) (rows : List α) (h : ∀ r ∈ rows, '\n' ∉ f r) :
    fields '\n' ((rows.map fun r => f r ++ ['\n']).flatten) = rows.map f ++ [[]] := by
  induction rows with
  | nil => rfl
  | cons r rs ih =>
    rw [List.map_cons, List.flatten_cons, List.append_assoc, List.singleton_append, fields_append _ (h r (by simp)),
      ih (fun r hr => h r (by simp [hr]))]
    rfl

theorem mapM_some {α β : Type} (f : α → Option β) (g : α → β) (l : List α) (h : ∀ a ∈ l, f a = some (g a)) :
    l.mapM f = some (l.map g) := by
  induction l with
  | nil => rfl
  | cons a l ih =>
    rw [List.mapM_cons, h a (by simp), ih (fun a ha => h a (by simp [ha]))]
    rfl

theorem readTable_rows {α β : Type} (header : List Char) (row : List (List Char) → Option β) (f : α → List Char) (g : α → β)
    (rows : List α) (hh : '\n' ∉ header) (hf : ∀ r ∈ rows, '\n' ∉ f r)
    (hrow : ∀ r ∈ rows, row (fields ',' (f r)) = some (g r)) :
    readTable? header row (header ++ ['\n'] ++ (rows.map fun r => f r ++ ['\n']).flatten) = some (rows.map g) := by
  unfold readTable?
  rw [List.append_assoc, List.singleton_append, fields_append _ hh, fields_lines f rows hf]
  simp only
  rw [if_pos ⟨trivial, by simp⟩, List.dropLast_concat, List.mapM_map]
  exact mapM_some _ g rows hrow

end Verif
