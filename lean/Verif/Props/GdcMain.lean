import Verif.Model.GdcMain
import Verif.Spec.GdcMain
import Verif.Lemmas.Getopt
import Verif.Props.CommandLine
import Verif.Props.Text

/-!
# C78: the extractor as a program
-/

namespace Verif.Props

open Verif Verif.Spec

/-! ## The loop -/

/-- Pieces of `n` bytes. -/
def gdcPieces (n : Nat) : Nat → Bytes → List Bytes
  | 0, _ => []
  | fuel + 1, l => if l = [] then [] else l.take n :: gdcPieces n fuel (l.drop n)

theorem gdcReadLoop_pieces (n : Nat) (hn : 0 < n) (fuel : Nat) (r : Reader) (hr : r.pos ≤ r.file.length) (p : GdcProc)
    (base : Nat) : gdcReadLoop n fuel r p base = p.processChunks (gdcPieces n fuel (r.file.drop r.pos)) base := by
  induction fuel generalizing r p base with
  | zero => rfl
  | succ fuel ih =>
    obtain ⟨h1, h2, h3⟩ := readChunk_spec r n hr
    rw [gdcReadLoop, gdcPieces]
    by_cases he : r.file.length ≤ r.pos
    · have e1 : r.isEOF = true := by unfold Reader.isEOF; exact decide_eq_true he
      have e2 : r.file.drop r.pos = [] := List.drop_of_length_le he
      rw [if_pos e1, if_pos e2]
      rfl
    · have e1 : ¬ r.isEOF = true := by unfold Reader.isEOF; rw [decide_eq_true_iff]; exact he
      have e2 : ¬ r.file.drop r.pos = [] := by
        rw [← List.length_eq_zero_iff, List.length_drop]; omega
      have e3 : ¬ (r.readChunk n).1 = [] := by
        rw [h1, ← List.length_eq_zero_iff, List.length_take, List.length_drop]; omega
      rw [if_neg e1, if_neg e2]
      simp only
      rw [if_neg e3, GdcProc.processChunks]
      congr 1
      · rw [h1]
      · funext x
        rw [ih _ (by rw [h2, h3]; omega), h2, h3, h1]
        have e4 : (r.file.drop r.pos).drop n = r.file.drop (min (r.pos + n) r.file.length) := by
          rw [List.drop_drop]
          rcases Nat.le_total (r.pos + n) r.file.length with h' | h'
          · rw [Nat.min_eq_left h']
          · rw [Nat.min_eq_right h', List.drop_of_length_le (Nat.le_refl _), List.drop_of_length_le h']
        rw [e4]

theorem gdcPieces_flatten (n : Nat) (hn : 0 < n) (fuel : Nat) (l : Bytes) (h : l.length ≤ fuel) :
    (gdcPieces n fuel l).flatten = l := by
  induction fuel generalizing l with
  | zero => rw [List.length_eq_zero_iff.mp (by omega : l.length = 0)]; rfl
  | succ fuel ih =>
    rw [gdcPieces]
    split_ifs with h0
    · rw [h0]; rfl
    · have : 0 < l.length := List.length_pos_iff.mpr h0
      rw [List.flatten_cons, ih _ (by rw [List.length_drop]; omega), List.take_append_drop]

theorem gdcPieces_aligned (n : Nat) (h8 : 8 ∣ n) (fuel : Nat) (l : Bytes) (h : l.length ≤ fuel) (hn : 0 < n) :
    ∀ d ∈ (gdcPieces n fuel l).dropLast, d.length % 8 = 0 := by
  induction fuel generalizing l with
  | zero => simp [gdcPieces]
  | succ fuel ih =>
    rw [gdcPieces]
    split_ifs with h0
    · simp
    · have hpos : 0 < l.length := List.length_pos_iff.mpr h0
      intro d hd
      cases hp : gdcPieces n fuel (l.drop n) with
      | nil => rw [hp] at hd; simp at hd
      | cons a as =>
        rw [hp, List.dropLast_cons_of_ne_nil (by simp), ← hp] at hd
        rcases List.mem_cons.mp hd with rfl | hd
        · have : n < l.length := by
            by_contra hc
            have e : l.drop n = [] := List.drop_of_length_le (by omega)
            rw [e] at hp
            cases fuel <;> simp [gdcPieces] at hp
          rw [List.length_take, Nat.min_eq_left (by omega)]
          omega
        · exact ih _ (by rw [List.length_drop]; omega) d hd

theorem recordsCut_zero (ws : List U64) (a : Nat) : recordsCut ws a [0] = [] := by
  simp [recordsCut, recordsOf]

theorem gdcPieces_cut (ws : List U64) (k : Nat) (hk : 0 < k) (fuel : Nat) (l : Bytes) (h : l.length ≤ fuel) (a : Nat) :
    recordsCut ws a ((gdcPieces (8 * k) fuel l).map fun d => d.length / 8) = recordsCut ws a (cutEvery k (l.length / 8)) := by
  induction fuel generalizing l a with
  | zero =>
    rw [List.length_eq_zero_iff.mp (by omega : l.length = 0)]
    simp [gdcPieces, cutEvery, recordsCut, recordsOf]
  | succ fuel ih =>
    rw [gdcPieces]
    by_cases h0 : l = []
    · rw [if_pos h0, h0]
      simp [cutEvery, recordsCut, recordsOf]
    · rw [if_neg h0]
      have hpos : 0 < l.length := List.length_pos_iff.mpr h0
      rw [List.map_cons, recordsCut, ih _ (by rw [List.length_drop]; omega)]
      by_cases hlt : l.length < 8 * k
      · have e1 : (l.drop (8 * k)).length = 0 := by rw [List.length_drop]; omega
        have e2 : l.length / 8 / k = 0 := Nat.div_eq_of_lt (by omega)
        have e3 : l.length / 8 % k = l.length / 8 := Nat.mod_eq_of_lt (by omega)
        have e4 : (l.take (8 * k)).length = l.length := by rw [List.length_take]; omega
        rw [e1, e4]
        unfold cutEvery
        rw [e2, e3]
        simp [recordsCut, recordsOf]
      · have e1 : (l.drop (8 * k)).length / 8 = l.length / 8 - k := by rw [List.length_drop]; omega
        have e4 : (l.take (8 * k)).length / 8 = k := by rw [List.length_take]; omega
        obtain ⟨t, ht⟩ : ∃ t, l.length / 8 = t + k := ⟨l.length / 8 - k, by omega⟩
        rw [e1, e4, ht, Nat.add_sub_cancel]
        unfold cutEvery
        rw [Nat.add_div_right t hk, Nat.add_mod_right, List.replicate_succ, List.cons_append, recordsCut]

/-- The records of the loop. -/
theorem gdcReadLoop_spec (k : Nat) (hk : 0 < k) (file : Bytes) : ∃ rs,
    gdcReadLoop (8 * k) (file.length + 1) ⟨file, 0⟩ GdcProc.new 0 = .ok rs ∧
    readTable? "chip_id,gdc_value,file_offset,timestamp_ns".toList gdcRow? (gdcText rs) =
      some ((recordsCut (wordsOf file) 0 (cutEvery k (wordsOf file).length)).map fun r => (r.1, r.2.1, r.2.2, 25 * r.2.1)) := by
  rw [gdcReadLoop_pieces (8 * k) (by omega) _ _ (Nat.zero_le _)]
  simp only [List.drop_zero]
  have hf := gdcPieces_flatten (8 * k) (by omega) (file.length + 1) file (by omega)
  obtain ⟨rs, h1, h2⟩ := c77_gdc_file _ (gdcPieces_aligned (8 * k) (Nat.dvd_mul_right _ _) (file.length + 1) file (by omega) (by omega))
  refine ⟨rs, h1, ?_⟩
  rw [h2, hf, gdcPieces_cut _ k hk _ _ (by omega), wordsOf_length]

/-! ## Text and bytes -/

theorem gdcText_ascii (rs : List GdcRecord) : ∀ c ∈ gdcText rs, c.toNat < 128 := by
  have hnat : ∀ n, ∀ c ∈ natText n, c.toNat < 128 := by
    intro n c hc
    have := natText_digits n c hc
    simp only [Char.isDigit, Bool.and_eq_true, decide_eq_true_eq] at this
    have h2 : c.val ≤ 57 := this.2
    have h3 : c.val.toNat ≤ 57 := h2
    show c.val.toNat < 128
    omega
  have hint : ∀ n, ∀ c ∈ intText n, c.toNat < 128 := by
    intro n c hc
    unfold intText at hc
    split_ifs at hc
    · rcases List.mem_cons.mp hc with rfl | hc
      · decide
      · exact hnat _ c hc
    · exact hnat _ c hc
  intro c hc
  unfold gdcText at hc
  rcases List.mem_append.mp hc with hc | hc
  · exact (by decide : ∀ c ∈ "chip_id,gdc_value,file_offset,timestamp_ns\n".toList, c.toNat < 128) c hc
  · obtain ⟨l, hl, hc⟩ := List.mem_flatten.mp hc
    obtain ⟨r, -, rfl⟩ := List.mem_map.mp hl
    unfold gdcLine at hc
    simp only [List.mem_append, List.mem_cons, List.not_mem_nil, or_false] at hc
    rcases hc with (((hc | rfl | hc) | rfl | hc) | rfl | hc) | rfl
    · exact hint _ c hc
    · decide
    · exact hnat _ c hc
    · decide
    · exact hnat _ c hc
    · decide
    · exact hnat _ c hc
    · decide

theorem text_back (t : List Char) (h : ∀ c ∈ t, c.toNat < 128) : (textBytes t).map (fun b => Char.ofNat b.toNat) = t := by
  unfold textBytes
  rw [List.map_map]
  conv_rhs => rw [← List.map_id t]
  apply List.map_congr_left
  intro c hc
  have := h c hc
  simp only [Function.comp, BitVec.toNat_ofNat, id]
  rw [Nat.mod_eq_of_lt (by omega), Char.ofNat_toNat]

/-! ## The options -/

theorem gdcItem_size (o o' : GdcOptions) (i : OptItem) (h : applyGdcItem o i = .ok o') (ho : 2 ^ 20 ∣ o.chunkSize) :
    2 ^ 20 ∣ o'.chunkSize := by
  unfold applyGdcItem at h
  split at h
  case h_5 v =>
    cases hs : stoull v with
    | throws m => rw [hs] at h; simp [Res.bind] at h
    | ub u => rw [hs] at h; simp [Res.bind] at h
    | ok mb =>
      rw [hs] at h
      simp only [Res.bind, Res.ok.injEq] at h
      subst h
      exact (c22_accepted_sizes mb).1
  case h_6 => cases h
  all_goals
    injection h with h
    subst h
    exact ho

theorem gdcItems_size (is : List OptItem) (o o' : GdcOptions) (h : applyGdcItems o is = .ok o') (ho : 2 ^ 20 ∣ o.chunkSize) :
    2 ^ 20 ∣ o'.chunkSize := by
  induction is generalizing o with
  | nil => injection h with h; subst h; exact ho
  | cons i is ih =>
    rw [applyGdcItems] at h
    cases hi : applyGdcItem o i with
    | ok o1 => rw [hi] at h; exact ih o1 h (gdcItem_size o o1 i hi ho)
    | throws e => rw [hi] at h; simp [Res.bind] at h
    | ub u => rw [hi] at h; simp [Res.bind] at h

theorem stoull_no_ub (s : List Char) (u : UB) : stoull s ≠ .ub u := by
  unfold stoull
  simp only
  split_ifs <;> simp

theorem gdcItems_no_ub (is : List OptItem) (o : GdcOptions) (u : UB) : applyGdcItems o is ≠ .ub u := by
  induction is generalizing o with
  | nil => simp [applyGdcItems]
  | cons i is ih =>
    rw [applyGdcItems]
    cases hi : applyGdcItem o i with
    | ok o1 => exact ih o1
    | throws e => simp [Res.bind]
    | ub v =>
      unfold applyGdcItem at hi
      split at hi
      case h_5 w =>
        cases hs : stoull w with
        | throws m => rw [hs] at hi; simp [Res.bind] at hi
        | ok mb => rw [hs] at hi; simp [Res.bind] at hi
        | ub u => exact absurd hs (stoull_no_ub w u)
      all_goals cases hi

theorem gdcParse_ok (argv : List Arg) (o : GdcOptions) (h : gdcParse argv = .ok o) :
    2 ^ 20 ∣ o.chunkSize ∧ o.input ≠ [] ∧ o.output ≠ [] := by
  unfold gdcParse at h
  cases ha : applyGdcItems {} (getoptGo gdcArgLetters gdcFlagLetters none argv) with
  | throws e => rw [ha] at h; simp [Res.bind] at h
  | ub u => rw [ha] at h; simp [Res.bind] at h
  | ok o1 =>
    rw [ha] at h
    simp only [Res.bind] at h
    split_ifs at h with hc
    injection h with h
    subst h
    rw [not_or] at hc
    exact ⟨gdcItems_size _ _ _ ha ⟨5120, by norm_num⟩, hc.1, hc.2⟩

theorem gdcParse_no_ub (argv : List Arg) (u : UB) : gdcParse argv ≠ .ub u := by
  unfold gdcParse
  cases ha : applyGdcItems {} (getoptGo gdcArgLetters gdcFlagLetters none argv) with
  | throws e => simp [Res.bind]
  | ub v => exact absurd ha (gdcItems_no_ub _ _ v)
  | ok o1 =>
    simp only [Res.bind]
    split_ifs <;> simp

/-! ## The program -/

/-- The options are usable: files there and allowed, size in range. -/
def GdcAllowed (e : GdcEnv) (o : GdcOptions) (fs : Files) : Prop :=
  fs (e.target o.input) ≠ none ∧ e.readable o.input = true ∧ e.parentOk o.output = true ∧ e.writable o.output = true

/-- The output file exists. -/
def touched (e : GdcEnv) (o : GdcOptions) (fs : Files) : Files :=
  Function.update fs (e.target o.output) (some ((fs (e.target o.output)).getD []))

theorem gdcValidate_cases (e : GdcEnv) (o : GdcOptions) (fs : Files) :
    (¬ GdcAllowed e o fs ∧ gdcValidate e o fs = (false, fs)) ∨
    (GdcAllowed e o fs ∧ (o.chunkSize < 2 ^ 20 ∨ 20 * 2 ^ 30 < o.chunkSize) ∧ gdcValidate e o fs = (false, touched e o fs)) ∨
    (GdcAllowed e o fs ∧ 2 ^ 20 ≤ o.chunkSize ∧ o.chunkSize ≤ 20 * 2 ^ 30 ∧ gdcValidate e o fs = (true, touched e o fs)) := by
  unfold gdcValidate GdcAllowed touched
  by_cases h1 : fs (e.target o.input) = none
  · left; rw [if_pos h1]; exact ⟨fun h => h.1 h1, rfl⟩
  by_cases h2 : e.readable o.input = false
  · left; rw [if_neg h1, if_pos h2]; exact ⟨fun h => by rw [h.2.1] at h2; exact absurd h2 (by decide), rfl⟩
  by_cases h3 : e.parentOk o.output = false
  · left; rw [if_neg h1, if_neg h2, if_pos h3]; exact ⟨fun h => by rw [h.2.2.1] at h3; exact absurd h3 (by decide), rfl⟩
  by_cases h4 : e.writable o.output = false
  · left; rw [if_neg h1, if_neg h2, if_neg h3, if_pos h4]
    exact ⟨fun h => by rw [h.2.2.2] at h4; exact absurd h4 (by decide), rfl⟩
  right
  rw [if_neg h1, if_neg h2, if_neg h3, if_neg h4]
  simp only
  rw [Bool.not_eq_false] at h2 h3 h4
  by_cases h5 : o.chunkSize < 1024 * 1024 ∨ 20 * 1024 * 1024 * 1024 < o.chunkSize
  · left
    rw [if_pos h5]
    exact ⟨⟨h1, h2, h3, h4⟩, by omega, rfl⟩
  · right
    rw [if_neg h5]
    exact ⟨⟨h1, h2, h3, h4⟩, by omega, by omega, rfl⟩

theorem gdcProcess_cases (e : GdcEnv) (o : GdcOptions) (fs : Files) (file : Bytes) (hw : e.writable o.output = true)
    (hf : fs (e.target o.input) = some file) (k : Nat) (hk : 0 < k) (hs : o.chunkSize = 8 * k) :
    ((e.target o.input = e.target o.output ∨ file = []) ∧ gdcProcess e o fs =
        .ok (1, Function.update fs (e.target o.output) (some (writtenBytes e (gdcText []))))) ∨
    (e.target o.input ≠ e.target o.output ∧ file ≠ [] ∧ ∃ rs,
      gdcProcess e o fs = .ok (0, Function.update fs (e.target o.output) (some (writtenBytes e (gdcText rs)))) ∧
      readTable? "chip_id,gdc_value,file_offset,timestamp_ns".toList gdcRow? (gdcText rs) =
        some ((recordsCut (wordsOf file) 0 (cutEvery k (wordsOf file).length)).map fun r => (r.1, r.2.1, r.2.2, 25 * r.2.1))) := by
  unfold gdcProcess
  rw [if_neg (by rw [hw]; decide)]
  simp only [Function.update_idem]
  by_cases ht : e.target o.input = e.target o.output
  · left
    refine ⟨Or.inl ht, ?_⟩
    rw [ht, Function.update_self]
    rfl
  · rw [Function.update_of_ne ht, hf]
    by_cases h0 : file = []
    · left
      refine ⟨Or.inr h0, ?_⟩
      subst h0
      rfl
    · right
      refine ⟨ht, h0, ?_⟩
      obtain ⟨rs, h1, h2⟩ := gdcReadLoop_spec k hk file
      refine ⟨rs, ?_, h2⟩
      have : Reader.open file = .ok ⟨file, 0⟩ := by
        unfold Reader.open
        rw [if_neg (by rw [List.length_eq_zero_iff]; exact h0)]
      simp only [this, hs, h1]

theorem touched_input (e : GdcEnv) (o : GdcOptions) (fs : Files) (h : fs (e.target o.input) ≠ none) :
    touched e o fs (e.target o.input) = fs (e.target o.input) := by
  unfold touched
  by_cases ht : e.target o.input = e.target o.output
  · rw [ht] at h ⊢
    rw [Function.update_self]
    cases hf : fs (e.target o.output) with
    | none => exact absurd hf h
    | some b => rfl
  · rw [Function.update_of_ne ht]

/-- All ways the program can end. -/
theorem gdcMain_cases (e : GdcEnv) (argv : List Arg) (fs : Files) :
    ((∃ m, gdcParse argv = .throws m) ∧ gdcMain e argv fs = .ok (1, fs)) ∨
    ∃ o, gdcParse argv = .ok o ∧
      ((¬ GdcAllowed e o fs ∧ gdcMain e argv fs = .ok (1, fs)) ∨
       (GdcAllowed e o fs ∧ (o.chunkSize < 2 ^ 20 ∨ 20 * 2 ^ 30 < o.chunkSize) ∧
         gdcMain e argv fs = .ok (1, touched e o fs)) ∨
       (GdcAllowed e o fs ∧ 2 ^ 20 ≤ o.chunkSize ∧ o.chunkSize ≤ 20 * 2 ^ 30 ∧
         (e.target o.input = e.target o.output ∨ fs (e.target o.input) = some []) ∧
         gdcMain e argv fs = .ok (1, Function.update fs (e.target o.output) (some (writtenBytes e (gdcText []))))) ∨
       (GdcAllowed e o fs ∧ e.target o.input ≠ e.target o.output ∧ ∃ file mb rs, o.chunkSize = mb * 2 ^ 20 ∧ 1 ≤ mb ∧
         mb ≤ 20480 ∧ fs (e.target o.input) = some file ∧ file ≠ [] ∧
         gdcMain e argv fs = .ok (0, Function.update fs (e.target o.output) (some (writtenBytes e (gdcText rs)))) ∧
         readTable? "chip_id,gdc_value,file_offset,timestamp_ns".toList gdcRow? (gdcText rs) =
           some (expectedRows (wordsOf file) mb))) := by
  cases hp : gdcParse argv with
  | ub u => exact absurd hp (gdcParse_no_ub argv u)
  | throws m => left; exact ⟨⟨m, rfl⟩, by unfold gdcMain; rw [hp]⟩
  | ok o =>
    right
    refine ⟨o, rfl, ?_⟩
    have hm : gdcMain e argv fs = match gdcValidate e o fs with
        | (false, fs') => .ok (1, fs')
        | (true, fs') => gdcProcess e o fs' := by
      unfold gdcMain; simp only [hp]; rfl
    rcases gdcValidate_cases e o fs with ⟨h1, h2⟩ | ⟨h1, h2, h3⟩ | ⟨h1, h2, h3, h4⟩
    · left; rw [hm, h2]; exact ⟨h1, rfl⟩
    · right; left; rw [hm, h3]; exact ⟨h1, h2, rfl⟩
    · right; right
      obtain ⟨mb, hmb⟩ := (gdcParse_ok argv o hp).1
      obtain ⟨file, hf⟩ := Option.ne_none_iff_exists'.mp h1.1
      have hm' : gdcMain e argv fs = gdcProcess e o (touched e o fs) := by rw [hm, h4]
      have hi : touched e o fs (e.target o.input) = some file := by rw [touched_input e o fs h1.1, hf]
      have hup : ∀ b, Function.update (touched e o fs) (e.target o.output) b = Function.update fs (e.target o.output) b := by
        intro b; unfold touched; rw [Function.update_idem]
      have hs : o.chunkSize = 8 * (mb * 131072) := by rw [hmb]; ring
      have h1mb : 1 ≤ mb ∧ mb ≤ 20480 := by omega
      rcases gdcProcess_cases e o (touched e o fs) file h1.2.2.2 hi (mb * 131072) (by omega) hs with ⟨g1, g2⟩ | ⟨g1, g2, rs, g3, g4⟩
      · left
        refine ⟨h1, h2, h3, ?_, by rw [hm', g2, hup]⟩
        rcases g1 with g1 | g1
        · exact Or.inl g1
        · exact Or.inr (by rw [hf, g1])
      · right
        exact ⟨h1, g1, file, mb, rs, by rw [hmb, Nat.mul_comm], h1mb.1, h1mb.2, hf, g2, by rw [hm', g3, hup], g4⟩

/-- C78: the program always ends, with code 0 or 1. -/
theorem c78_ends (e : GdcEnv) (argv : List Arg) (fs : Files) :
    ∃ code fs', gdcMain e argv fs = .ok (code, fs') ∧ (code = 0 ∨ code = 1) := by
  rcases gdcMain_cases e argv fs with ⟨-, h⟩ | ⟨o, -, ⟨-, h⟩ | ⟨-, -, h⟩ | ⟨-, -, -, -, h⟩ | ⟨-, -, f, mb, rs, -, -, -, -, -, h, -⟩⟩
  · exact ⟨_, _, h, Or.inr rfl⟩
  · exact ⟨_, _, h, Or.inr rfl⟩
  · exact ⟨_, _, h, Or.inr rfl⟩
  · exact ⟨_, _, h, Or.inr rfl⟩
  · exact ⟨_, _, h, Or.inl rfl⟩

/-- C78, success: with code 0 every file but the output is as before, the input among them, and what was written, if the
device took all of it, reads back as the records of the input. -/
theorem c78_success_partial (e : GdcEnv) (argv : List Arg) (fs fs' : Files) (h : gdcMain e argv fs = .ok (0, fs')) :
    ∃ o file mb out, gdcParse argv = .ok o ∧ o.chunkSize = mb * 2 ^ 20 ∧ 1 ≤ mb ∧ mb ≤ 20480 ∧
      fs (e.target o.input) = some file ∧ fs' (e.target o.input) = some file ∧
      (∀ p, p ≠ e.target o.output → fs' p = fs p) ∧
      fs' (e.target o.output) = some out ∧ ∃ all, readCsv? all = some (expectedRows (wordsOf file) mb) ∧
        out = all.take e.room ∧ (all.length ≤ e.room → out = all) := by
  rcases gdcMain_cases e argv fs with ⟨-, g⟩ | ⟨o, ho, ⟨-, g⟩ | ⟨-, -, g⟩ | ⟨-, -, -, -, g⟩ | ⟨-, ht, f, mb, rs, a1, a2, a3, a4, a5, g, a6⟩⟩
  all_goals rw [h] at g
  · simp at g
  · simp at g
  · simp at g
  · simp at g
  · simp only [Res.ok.injEq, Prod.mk.injEq, true_and] at g
    subst g
    refine ⟨o, f, mb, writtenBytes e (gdcText rs), ho, a1, a2, a3, a4, ?_, ?_, Function.update_self _ _ _, textBytes (gdcText rs), ?_, rfl, ?_⟩
    · rw [Function.update_of_ne ht, a4]
    · intro p hp; rw [Function.update_of_ne hp]
    · unfold readCsv?
      rw [text_back _ (gdcText_ascii rs), a6]
    · intro hl
      unfold writtenBytes
      rw [List.take_of_length_le hl]

/-- C78, failure: with code 1 every file but the output is as before.  The output is as before, or has been created empty, or
is cut down to the first line; the last happens only when the input is empty or is the output itself. -/
theorem c78_failure_partial (e : GdcEnv) (argv : List Arg) (fs fs' : Files) (h : gdcMain e argv fs = .ok (1, fs')) :
    fs' = fs ∨ ∃ o, gdcParse argv = .ok o ∧ (∀ p, p ≠ e.target o.output → fs' p = fs p) ∧
      ((fs (e.target o.output) = none ∧ fs' (e.target o.output) = some []) ∨
       ((e.target o.input = e.target o.output ∨ fs (e.target o.input) = some []) ∧ ∃ out, fs' (e.target o.output) = some out ∧
         ∃ all, readCsv? all = some [] ∧ out = all.take e.room)) := by
  rcases gdcMain_cases e argv fs with ⟨-, g⟩ | ⟨o, ho, ⟨-, g⟩ | ⟨-, -, g⟩ | ⟨-, -, -, h4, g⟩ | ⟨-, ht, f, mb, rs, a1, a2, a3, a4, a5, g, a6⟩⟩
  all_goals rw [h] at g
  all_goals simp only [Res.ok.injEq, Prod.mk.injEq, true_and, one_ne_zero, false_and] at g
  · exact Or.inl g
  · exact Or.inl g
  · subst g
    cases hf : fs (e.target o.output) with
    | some b =>
      left
      unfold touched
      rw [hf, Option.getD_some, ← hf, Function.update_eq_self]
    | none =>
      right
      refine ⟨o, ho, fun p hp => ?_, Or.inl ⟨hf, ?_⟩⟩
      · unfold touched; rw [Function.update_of_ne hp]
      · unfold touched; rw [Function.update_self, hf]; rfl
  · subst g
    right
    refine ⟨o, ho, fun p hp => by rw [Function.update_of_ne hp], Or.inr ⟨h4, _, Function.update_self _ _ _, textBytes (gdcText []), ?_, rfl⟩⟩
    unfold readCsv?
    rw [text_back _ (gdcText_ascii [])]
    exact c77_gdc []

/-! ## From the command line -/

theorem gdc_letters_value : gdcValueLetters = gdcArgLetters := by decide
theorem gdc_letters_switch : gdcSwitchLetters = gdcFlagLetters := by decide

theorem gdcLettersOk : LettersOk gdcArgLetters gdcFlagLetters := by unfold LettersOk; decide

theorem gdcItems_no_bad (is : List OptItem) (o o' : GdcOptions) (h : applyGdcItems o is = .ok o') (c : Char) :
    .bad c ∉ is := by
  induction is generalizing o with
  | nil => simp
  | cons i is ih =>
    rw [applyGdcItems] at h
    intro hm
    rcases List.mem_cons.mp hm with rfl | hm
    · simp [applyGdcItem, Res.bind] at h
    · cases hi : applyGdcItem o i with
      | ok o1 => rw [hi] at h; exact ih o1 h hm
      | throws e => rw [hi] at h; simp [Res.bind] at h
      | ub u => rw [hi] at h; simp [Res.bind] at h

/-- The options that the settings describe. -/
def gdcOptionsOf (o : GdcOptions) (mb : List Char → Nat) (ss : List CliSetting) : GdcOptions :=
  ⟨(lastValue ss 'i').getD o.input, (lastValue ss 'o').getD o.output,
    ((lastValue ss 'c').map fun v => chunkSizeOf (mb v)).getD o.chunkSize, o.debug || decide (.switch 'd' ∈ ss),
    o.verbose || decide (.switch 'v' ∈ ss)⟩

theorem gdcItem_step (o : GdcOptions) (mb : List Char → Nat) (a : CliSetting) (hk : a.Known gdcArgLetters gdcFlagLetters)
    (hc : ∀ v, a = .value 'c' v → stoull v = .ok (mb v)) : applyGdcItem o (itemOf a) = .ok
      ⟨(a.valueFor 'i').getD o.input, (a.valueFor 'o').getD o.output,
        ((a.valueFor 'c').map fun v => chunkSizeOf (mb v)).getD o.chunkSize, o.debug || a = .switch 'd',
        o.verbose || a = .switch 'v'⟩ := by
  match a, hk, hc with
  | .switch c, hk, _ =>
    simp only [CliSetting.Known, gdcFlagLetters, List.mem_cons, List.not_mem_nil, or_false] at hk
    rcases hk with rfl | rfl <;> simp [applyGdcItem, itemOf, CliSetting.valueFor]
  | .value c v, hk, hc =>
    simp only [CliSetting.Known, gdcArgLetters, List.mem_cons, List.not_mem_nil, or_false] at hk
    rcases hk with rfl | rfl | rfl
    case inr.inr =>
      show (stoull v).bind _ = _
      rw [hc v rfl]
      simp only [Res.bind, CliSetting.valueFor, chunkSizeOf]
      simp
    all_goals simp [applyGdcItem, itemOf, CliSetting.valueFor]

theorem gdcItems_settings (ss : List CliSetting) (o : GdcOptions) (mb : List Char → Nat)
    (hk : ∀ a ∈ ss, a.Known gdcArgLetters gdcFlagLetters) (hc : ∀ v, .value 'c' v ∈ ss → stoull v = .ok (mb v)) :
    applyGdcItems o (ss.map itemOf) = .ok (gdcOptionsOf o mb ss) := by
  induction ss generalizing o with
  | nil => simp [applyGdcItems, gdcOptionsOf, lastValue]
  | cons a ss ih =>
    rw [List.map_cons, applyGdcItems, gdcItem_step o mb a (hk a (by simp)) (fun v hv => hc v (by simp [hv]))]
    simp only [Res.bind]
    rw [ih _ (fun b hb => hk b (by simp [hb])) (fun v hv => hc v (by simp [hv]))]
    unfold gdcOptionsOf
    simp only [lastValue_cons, lastValue_cons_map, List.mem_cons, Bool.decide_or, Bool.or_assoc, eq_comm]

theorem gdcParse_settings (ss : List CliSetting) (argv : List Arg) (h : Written gdcValueLetters gdcSwitchLetters ss argv)
    (mb : List Char → Nat) (hc : ∀ v, .value 'c' v ∈ ss → Integer v (mb v) ∧ mb v < 2 ^ 44) :
    gdcParse argv = if valueOr ss 'i' "" = [] ∨ valueOr ss 'o' "" = [] then .throws "required" else .ok
      ⟨valueOr ss 'i' "", valueOr ss 'o' "", ((lastValue ss 'c').map mb).getD 5120 * 2 ^ 20, decide (.switch 'd' ∈ ss),
        decide (.switch 'v' ∈ ss)⟩ := by
  rw [gdc_letters_value, gdc_letters_switch] at h
  have ha := gdcItems_settings ss {} mb (Written.known h)
    (fun v hv => stoull_integer v (mb v) (hc v hv).1 (by have := (hc v hv).2; omega))
  have hsize := size_of_last (lastValue ss 'c') mb (fun v hv => (hc v (mem_of_lastValue hv)).2)
  obtain ⟨q, hq⟩ : ∃ q, q = ((lastValue ss 'c').map mb).getD 5120 * 2 ^ 20 := ⟨_, rfl⟩
  rw [← hq] at hsize ⊢
  clear hq
  unfold gdcParse
  rw [getopt_written gdcLettersOk h, ha]
  unfold gdcOptionsOf
  simp only [Bool.false_or, hsize, Res.bind]
  rfl

/-- C78, rejection: a command line with an unknown letter or a missing value does not give code 0. -/
theorem c78_grammar (e : GdcEnv) (argv : List Arg) (fs fs' : Files) (h : gdcMain e argv fs = .ok (0, fs')) :
    ∃ ss, Written gdcValueLetters gdcSwitchLetters ss argv := by
  obtain ⟨o, -, -, -, ho, -⟩ := c78_success_partial e argv fs fs' h
  unfold gdcParse at ho
  rw [gdc_letters_value, gdc_letters_switch]
  cases ha : applyGdcItems {} (getoptGo gdcArgLetters gdcFlagLetters none argv) with
  | ok o1 => exact written_of_getopt gdcLettersOk _ argv le_rfl (gdcItems_no_bad _ _ _ ha)
  | throws e => rw [ha] at ho; simp [Res.bind] at ho
  | ub u => rw [ha] at ho; simp [Res.bind] at ho

/-- C78, the exit code: for a command line that writes down settings (the chunk size, each time it is given, as a number below
2^44) the code is 0 exactly when both files are named, the size is 1 to 20480 megabytes, the input is there, not empty and
readable, the output can be written, and the two are different files. -/
theorem c78_exit_partial (e : GdcEnv) (ss : List CliSetting) (argv : List Arg)
    (h : Written gdcValueLetters gdcSwitchLetters ss argv) (mb : List Char → Nat)
    (hc : ∀ v, .value 'c' v ∈ ss → Integer v (mb v) ∧ mb v < 2 ^ 44) (fs : Files) (i o : Path) (size : Nat)
    (hi : i = valueOr ss 'i' "") (ho : o = valueOr ss 'o' "") (hz : size = ((lastValue ss 'c').map mb).getD 5120) :
    (∃ fs', gdcMain e argv fs = .ok (0, fs')) ↔
      i ≠ [] ∧ o ≠ [] ∧ 1 ≤ size ∧ size ≤ 20480 ∧ (∃ file, fs (e.target i) = some file ∧ file ≠ []) ∧
      e.readable i = true ∧ e.parentOk o = true ∧ e.writable o = true ∧ e.target i ≠ e.target o := by
  have hp := gdcParse_settings ss argv h mb hc
  rw [← hi, ← ho, ← hz] at hp
  have hcases := gdcMain_cases e argv fs
  by_cases hn : i = [] ∨ o = []
  · rw [if_pos hn] at hp
    constructor
    · rintro ⟨fs', hr⟩
      obtain ⟨o', -, -, -, g, -⟩ := c78_success_partial e argv fs fs' hr
      rw [hp] at g
      cases g
    · rintro ⟨h1, h2, -⟩
      rcases hn with hn | hn
      · exact absurd hn h1
      · exact absurd hn h2
  · rw [if_neg hn] at hp
    rw [not_or] at hn
    rcases hcases with ⟨⟨m, g⟩, -⟩ | ⟨o', g, hcases⟩
    · rw [hp] at g; cases g
    · rw [hp] at g
      injection g with g
      have e1 : o'.input = i := by rw [← g]
      have e2 : o'.output = o := by rw [← g]
      have e3 : o'.chunkSize = size * 2 ^ 20 := by rw [← g]
      unfold GdcAllowed at hcases
      rw [e1, e2, e3] at hcases
      rcases hcases with ⟨a1, g⟩ | ⟨-, a2, g⟩ | ⟨-, a2, a3, a4, g⟩ | ⟨a1, ht, f, mb', rs, b1, b2, b3, b4, b5, g, -⟩
      · rw [g]
        constructor
        · rintro ⟨fs', hr⟩; simp at hr
        · rintro ⟨-, -, -, -, ⟨file, f1, -⟩, c1, c2, c3, -⟩
          exact absurd ⟨by rw [f1]; simp, c1, c2, c3⟩ a1
      · rw [g]
        constructor
        · rintro ⟨fs', hr⟩; simp at hr
        · rintro ⟨-, -, c1, c2, -⟩
          omega
      · rw [g]
        constructor
        · rintro ⟨fs', hr⟩; simp at hr
        · rintro ⟨-, -, -, -, ⟨file, f1, f2⟩, -, -, -, c4⟩
          rcases a4 with a4 | a4
          · exact absurd a4 c4
          · rw [f1] at a4
            injection a4 with a4
            exact absurd a4 f2
      · rw [g]
        refine ⟨fun _ => ⟨hn.1, hn.2, ?_, ?_, ⟨f, b4, b5⟩, a1.2.1, a1.2.2.1, a1.2.2.2, ht⟩, fun _ => ⟨_, rfl⟩⟩
        · omega
        · omega

/-- C78 is false: naming the input as the output destroys it. -/
theorem c78_false_same (e : GdcEnv) (argv : List Arg) (o : GdcOptions) (hp : gdcParse argv = .ok o) (fs : Files) (file : Bytes)
    (hf : fs (e.target o.input) = some file) (hs : 2 ^ 20 ≤ o.chunkSize ∧ o.chunkSize ≤ 20 * 2 ^ 30)
    (hr : e.readable o.input = true) (hd : e.parentOk o.output = true) (hw : e.writable o.output = true)
    (ht : e.target o.input = e.target o.output) :
    ∃ fs', gdcMain e argv fs = .ok (1, fs') ∧
      fs' (e.target o.input) = some ((textBytes "chip_id,gdc_value,file_offset,timestamp_ns\n".toList).take e.room) := by
  rcases gdcMain_cases e argv fs with ⟨⟨m, g⟩, -⟩ | ⟨o', g, hcases⟩
  · rw [hp] at g; cases g
  · rw [hp] at g
    injection g with g
    subst g
    rcases hcases with ⟨a1, g⟩ | ⟨-, a2, g⟩ | ⟨-, a2, a3, a4, g⟩ | ⟨-, b, -⟩
    · exact absurd ⟨by rw [hf]; simp, hr, hd, hw⟩ a1
    · omega
    · refine ⟨_, g, ?_⟩
      rw [ht, Function.update_self]
      rfl
    · exact absurd ht b

/-- A device with room for the first line only. -/
def fullDevice : GdcEnv := ⟨id, fun _ => true, fun _ => true, fun _ => true, 43⟩

/-- A chunk of one low and one high half of the time. -/
def gdcSample : Bytes := [0x0010000233585054#64, 0x4400000012340000#64, 0x4500000000010000#64].flatMap bytesOf

/-- C78 is false: when the device is full, the records are lost and the code is 0. -/
theorem c78_false_full : ∃ fs' : Files,
    gdcMain fullDevice ["-ia".toList, "-ob".toList] (Function.update (fun _ => none) ['a'] (some gdcSample)) = .ok (0, fs') ∧
    (fs' ['b']).bind readCsv? = some [] ∧
    expectedRows (wordsOf gdcSample) 5120 = [(2, 4294971956, 16, 107374298900)] := by
  have key : (match gdcMain fullDevice ["-ia".toList, "-ob".toList] (Function.update (fun _ => none) ['a'] (some gdcSample)) with
      | .ok (c, f) => decide (c = 0 ∧ (f ['b']).bind readCsv? = some [])
      | _ => false) = true := by decide +kernel
  cases hm : gdcMain fullDevice ["-ia".toList, "-ob".toList] (Function.update (fun _ => none) ['a'] (some gdcSample)) with
  | ub u => rw [hm] at key; cases key
  | throws m => rw [hm] at key; cases key
  | ok r =>
    obtain ⟨c, f⟩ := r
    rw [hm] at key
    simp only [decide_eq_true_eq] at key
    obtain ⟨rfl, k2⟩ := key
    exact ⟨f, rfl, k2, by decide +kernel⟩

/-- C78 is false: a size that is not allowed is refused only after the output file has been made. -/
theorem c78_false_created : ∃ fs' : Files,
    gdcMain ⟨id, fun _ => true, fun _ => true, fun _ => true, 1000⟩ ["-ia".toList, "-ob".toList, "-c0".toList]
      (Function.update (fun _ => none) ['a'] (some gdcSample)) = .ok (1, fs') ∧ fs' ['b'] = some [] := by
  have key : (match gdcMain ⟨id, fun _ => true, fun _ => true, fun _ => true, 1000⟩ ["-ia".toList, "-ob".toList, "-c0".toList]
        (Function.update (fun _ => none) ['a'] (some gdcSample)) with
      | .ok (c, f) => decide (c = 1 ∧ f ['b'] = some [])
      | _ => false) = true := by decide +kernel
  cases hm : gdcMain ⟨id, fun _ => true, fun _ => true, fun _ => true, 1000⟩ ["-ia".toList, "-ob".toList, "-c0".toList]
      (Function.update (fun _ => none) ['a'] (some gdcSample)) with
  | ub u => rw [hm] at key; cases key
  | throws m => rw [hm] at key; cases key
  | ok r =>
    obtain ⟨c, f⟩ := r
    rw [hm] at key
    simp only [decide_eq_true_eq] at key
    obtain ⟨rfl, k2⟩ := key
    exact ⟨f, rfl, k2⟩

/-- A run that gives code 0 and the record, from the command line `-i a -o b` with room enough. -/
example : (match gdcMain ⟨id, fun _ => true, fun _ => true, fun _ => true, 1000⟩ ["-i".toList, "a".toList, "-ob".toList]
        (Function.update (fun _ => none) ['a'] (some gdcSample)) with
      | .ok (c, f) => decide (c = 0 ∧ (f ['b']).bind readCsv? = some [(2, 4294971956, 16, 107374298900)])
      | _ => false) = true := by decide +kernel

/-- The hypotheses of `c78_exit_partial`. -/
example : Written gdcValueLetters gdcSwitchLetters [.value 'i' ['a'], .value 'o' ['b'], .value 'c' ['7']]
    ["-ia".toList, "-ob".toList, "-c7".toList] ∧ Integer ['7'] 7 :=
  ⟨.attached (ss := [.value 'o' ['b'], .value 'c' ['7']]) [] 'i' ['a'] (by simp) (by decide) (by simp)
      (.attached (ss := [.value 'c' ['7']]) [] 'o' ['b'] (by simp) (by decide) (by simp)
        (.attached [] 'c' ['7'] (by simp) (by decide) (by simp) .nil)), by unfold Integer Digit; decide⟩

/-- The hypotheses of `c78_false_same`. -/
example : ∃ o, gdcParse ["-ia".toList, "-oa".toList] = .ok o ∧ 2 ^ 20 ≤ o.chunkSize ∧ o.chunkSize ≤ 20 * 2 ^ 30 ∧
    o.input = o.output := by
  refine ⟨⟨['a'], ['a'], 5 * 1024 * 1024 * 1024, false, false⟩, by decide +kernel, by norm_num, by norm_num, rfl⟩

end Verif.Props
