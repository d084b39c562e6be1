import Verif.Props.H5
import Verif.Props.JsonText
import Verif.Lemmas.Text

/-!
# C44: the names of files saved beside existing ones
-/

namespace Verif.Props

open Verif Verif.Spec

theorem numeral_zeros (k : Nat) (l : List Char) : numeral (List.replicate k '0' ++ l) = numeral l := by
  unfold numeral
  rw [List.foldl_append]
  congr 1
  induction k with
  | zero => rfl
  | succ k ih => rw [List.replicate_succ, List.foldl_cons]; exact ih

theorem pad6_digits (n : Nat) (hn : n < 10 ^ 6) : (pad6 n).length = 6 ∧ (∀ c ∈ pad6 n, Digit c) ∧ numeral (pad6 n) = n := by
  have hlen := (Nat.length_toDigits_le_iff (b := 10) (n := n) (k := 6) (by norm_num) (by norm_num)).mpr hn
  unfold pad6
  refine ⟨by rw [List.length_append, List.length_replicate]; omega, ?_, ?_⟩
  · intro c hc
    rcases List.mem_append.1 hc with hc | hc
    · rw [(List.mem_replicate.1 hc).2]; unfold Digit; decide
    · have := Nat.isDigit_of_mem_toDigits (b := 10) (by norm_num) (by norm_num) hc
      rw [Char.isDigit_iff_toNat] at this
      unfold Digit
      rw [Char.le_def, Char.le_def, UInt32.le_iff_toNat_le, UInt32.le_iff_toNat_le]
      exact this
  · rw [numeral_zeros, ← digitsVal_eq]
    exact Nat.ofDigitChars_toDigits (by norm_num) (by norm_num)

/-- C44: the new name of a file with an extension: directory, stem, underscore, the microseconds with six digits, the extension. -/
theorem c44_stamp_name (dir name ext : List Char) (micros : Nat) (hm : micros < 10 ^ 6) (hd : dir = [] ∨ ∃ d, dir = d ++ ['/'])
    (hn : '/' ∉ name) (hne : name ≠ []) (he : '/' ∉ ext) (hp : '.' ∉ ext) (hdd : ¬ (name = ['.'] ∧ ext = [])) :
    ∃ ds, ds.length = 6 ∧ (∀ c ∈ ds, Digit c) ∧ numeral ds = micros ∧
      stampName (dir ++ name ++ '.' :: ext) micros = dir ++ name ++ '_' :: (ds ++ '.' :: ext) := by
  obtain ⟨p1, p2, p3⟩ := pad6_digits micros hm
  refine ⟨pad6 micros, p1, p2, p3, ?_⟩
  have h1 : splitDir (dir ++ name ++ '.' :: ext) = (dir, name ++ '.' :: ext) := by
    rw [List.append_assoc]
    refine splitDir_name dir _ hd ?_
    simp only [List.mem_append, List.mem_cons, not_or]
    exact ⟨hn, by decide, he⟩
  have hx := c97_extension (dir ++ name ++ '.' :: ext) ext ⟨dir, name, rfl, hd, hn, hne, he, hp, hdd⟩
  unfold extensionOf at hx
  rw [h1] at hx
  have hs : splitExt (name ++ '.' :: ext) = (name, '.' :: ext) := by
    have hall : ∀ c ∈ ext.reverse, decide (c ≠ '.') = true := by
      intro c hc
      simp only [ne_eq, decide_not, Bool.not_eq_eq_eq_not, Bool.not_true, decide_eq_false_iff_not]
      rintro rfl
      exact hp (List.mem_reverse.1 hc)
    refine Prod.ext ?_ hx
    unfold splitExt at hx ⊢
    simp only at hx ⊢
    split_ifs at hx ⊢ with hc
    simp only [List.reverse_append, List.reverse_cons, List.append_assoc, List.cons_append, List.nil_append]
    rw [List.dropWhile_append_of_pos hall]
    simp
  unfold stampName
  rw [h1]
  simp only
  rw [hs]
  simp

/-- C44: a name without extension, or one whose only point is its first character, gets the extension `h5`. -/
theorem c44_stamp_no_extension (dir name : List Char) (micros : Nat) (hm : micros < 10 ^ 6) (hd : dir = [] ∨ ∃ d, dir = d ++ ['/'])
    (hn : '/' ∉ name) (hp : '.' ∉ name ∨ ∃ r, name = '.' :: r ∧ '.' ∉ r) :
    ∃ ds, ds.length = 6 ∧ (∀ c ∈ ds, Digit c) ∧ numeral ds = micros ∧
      stampName (dir ++ name) micros = dir ++ name ++ '_' :: (ds ++ ".h5".toList) := by
  obtain ⟨p1, p2, p3⟩ := pad6_digits micros hm
  refine ⟨pad6 micros, p1, p2, p3, ?_⟩
  have hs : splitExt name = (name, []) := by
    unfold splitExt
    simp only
    rw [if_pos]
    rcases hp with hp | ⟨r, rfl, hr⟩
    · exact .inl hp
    · right; left
      have hall : ∀ c ∈ r.reverse, decide (c ≠ '.') = true := by
        intro c hc
        simp only [ne_eq, decide_not, Bool.not_eq_eq_eq_not, Bool.not_true, decide_eq_false_iff_not]
        rintro rfl
        exact hr (List.mem_reverse.1 hc)
      rw [List.reverse_cons, List.dropWhile_append_of_pos hall]
      simp
  unfold stampName
  rw [splitDir_name dir name hd hn]
  simp only
  rw [hs, if_pos rfl]
  rfl

/-- C44: saves in different microseconds of a second go to different files. -/
theorem c44_stamp_injective (p : Path) (m m' : Nat) (hm : m < 10 ^ 6) (hm' : m' < 10 ^ 6) (h : stampName p m = stampName p m') : m = m' := by
  obtain ⟨a1, -, a3⟩ := pad6_digits m hm
  obtain ⟨b1, -, b3⟩ := pad6_digits m' hm'
  unfold stampName at h
  simp only at h
  have h := List.append_cancel_left h
  injection h with _ h
  have := List.append_inj_left h (by rw [a1, b1])
  rw [← a3, ← b3, this]

example : stampName "out/run.5.h5".toList 42 = "out/run.5_000042.h5".toList ∧ stampName "a/.hits".toList 123456 = "a/.hits_123456.h5".toList := by
  decide +kernel

end Verif.Props
