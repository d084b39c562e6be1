import Verif.Spec.Config
import Verif.Lemmas.Image
import Verif.Lemmas.F64
import Mathlib.Tactic.Ring

/-!
# Configuration (C45, C46)
-/

namespace Verif.Props

open Verif Verif.Spec

/-! ## C45 -/

theorem IsDouble.asDouble {v : Json} {x : F64} (h : IsDouble v x) : v.asDouble = .ok x := by
  cases h with
  | uint n h =>
    have hb : |(n.toNat : Int)| ≤ 2 ^ 53 := by
      rw [abs_of_nonneg (Int.natCast_nonneg _)]; exact_mod_cast h
    simp only [Json.asDouble]
    rw [F64.ofInt_exact hb]
    simp only [Int.cast_natCast]
  | int n h => simp only [Json.asDouble]; rw [F64.ofInt_exact h]
  | float x => rfl

theorem getChecked_one (l : List (String × Json)) (t : String) : (Json.obj l).getChecked [t] =
    match l.lookup t with
    | some j => .found j
    | none => .outOfRange := by
  rw [Json.getChecked]
  cases l.lookup t with
  | none => rfl
  | some j => simp only; cases j <;> rfl

theorem memberAt_one (l : List (String × Json)) (t : String) : memberAt (.obj l) [t] = l.lookup t := by
  rw [memberAt]
  cases l.lookup t with
  | none => rfl
  | some j => cases j <;> rfl

/-- Following a pointer of two names in a well-formed object. -/
theorem getChecked_two (l : List (String × Json)) (s t : String) (h : ∀ v, l.lookup s = some v → ∃ m, v = .obj m) :
    (Json.obj l).getChecked [s, t] = match memberAt (.obj l) [s, t] with
      | some j => .found j
      | none => .outOfRange := by
  rw [Json.getChecked, memberAt]
  cases hl : l.lookup s with
  | none => rfl
  | some v =>
    obtain ⟨m, rfl⟩ := h v hl
    simp only [Option.bind_some]
    rw [getChecked_one, memberAt_one]

theorem value_two {α : Type} (l : List (String × Json)) (s t : String) (h : ∀ v, l.lookup s = some v → ∃ m, v = .obj m)
    (conv : Json → Res α) (d : α) : (Json.obj l).value [s, t] conv d = match memberAt (.obj l) [s, t] with
      | some j => conv j
      | none => .ok d := by
  unfold Json.value
  simp only
  rw [getChecked_two l s t h]
  cases memberAt (.obj l) [s, t] <;> rfl

theorem WellFormed.sections {j : Json} (h : WellFormed j) : ∃ l, j = .obj l ∧
    (∀ v, l.lookup "abs" = some v → ∃ m, v = .obj m) ∧ (∀ v, l.lookup "tof_imaging" = some v → ∃ m, v = .obj m) := by
  obtain ⟨⟨l, rfl⟩, h1, h2⟩ := h
  refine ⟨l, rfl, ?_, ?_⟩
  · intro v hv; exact h1 v (by rw [memberAt_one]; exact hv)
  · intro v hv; exact h2 v (by rw [memberAt_one]; exact hv)

theorem ofRat5 : F64.ofRat 5 = .fin 5 := by simpa using F64.ofRat_int (n := 5) (by norm_num)
theorem ofRat1 : F64.ofRat 1 = .fin 1 := by simpa using F64.ofRat_int (n := 1) (by norm_num)

/-- C45, absent scalar settings: the documented defaults. -/
theorem c45_defaults (j : Json) (h : WellFormed j) (b : TofBinning) :
    (memberAt j ["abs", "radius"] = none → JsonConfig.radius ⟨j, b⟩ = .ok (.fin 5)) ∧
    (memberAt j ["abs", "min_cluster_size"] = none → JsonConfig.minClusterSize ⟨j, b⟩ = .ok 1#64) ∧
    (memberAt j ["abs", "spider_time_range"] = none → JsonConfig.spiderTimeRange ⟨j, b⟩ = .ok 75#64) ∧
    (memberAt j ["tof_imaging", "super_resolution"] = none → JsonConfig.superResolution ⟨j, b⟩ = .ok (.fin 1)) := by
  obtain ⟨l, rfl, h1, h2⟩ := WellFormed.sections h
  refine ⟨?_, ?_, ?_, ?_⟩
  · intro hm; unfold JsonConfig.radius; rw [value_two l _ _ h1, hm, ofRat5]
  · intro hm; unfold JsonConfig.minClusterSize; rw [value_two l _ _ h1, hm]
  · intro hm; unfold JsonConfig.spiderTimeRange; rw [value_two l _ _ h1, hm]
  · intro hm; unfold JsonConfig.superResolution; rw [value_two l _ _ h2, hm, ofRat1]

/-- C45, present scalar settings: their values. -/
theorem c45_values (j : Json) (h : WellFormed j) (b : TofBinning) :
    (∀ v x, memberAt j ["abs", "radius"] = some v → IsDouble v x → JsonConfig.radius ⟨j, b⟩ = .ok x) ∧
    (∀ n, memberAt j ["abs", "min_cluster_size"] = some (.uint n) → JsonConfig.minClusterSize ⟨j, b⟩ = .ok n) ∧
    (∀ n, memberAt j ["abs", "spider_time_range"] = some (.uint n) → JsonConfig.spiderTimeRange ⟨j, b⟩ = .ok n) ∧
    (∀ v x, memberAt j ["tof_imaging", "super_resolution"] = some v → IsDouble v x →
      JsonConfig.superResolution ⟨j, b⟩ = .ok x) := by
  obtain ⟨l, rfl, h1, h2⟩ := WellFormed.sections h
  refine ⟨?_, ?_, ?_, ?_⟩
  · intro v x hm hv; unfold JsonConfig.radius; rw [value_two l _ _ h1, hm]; exact IsDouble.asDouble hv
  · intro n hm; unfold JsonConfig.minClusterSize; rw [value_two l _ _ h1, hm]; rfl
  · intro n hm; unfold JsonConfig.spiderTimeRange; rw [value_two l _ _ h1, hm]; rfl
  · intro v x hm hv; unfold JsonConfig.superResolution; rw [value_two l _ _ h2, hm]; exact IsDouble.asDouble hv

theorem asDoubles_ok (vs : List Json) (xs : List F64) (h : List.Forall₂ IsDouble vs xs) :
    (Json.arr vs).asDoubles = .ok xs := by
  unfold Json.asDoubles
  simp only
  induction h with
  | nil => rfl
  | cons h1 _ ih => rw [List.mapM_cons, IsDouble.asDouble h1]; simp only [bind, Res.bind]; rw [ih]; rfl

/-- C45: explicit edges are used, whatever else the section contains.
Missing: an empty list (`c45_false_empty_edges`). -/
theorem c45_edges_partial (j : Json) (h : WellFormed j) (vs : List Json) (xs : List F64)
    (hm : memberAt j ["tof_imaging", "bin_edges"] = some (.arr vs)) (hv : List.Forall₂ IsDouble vs xs) (hne : vs ≠ []) :
    ∃ c, JsonConfig.make j = .ok c ∧ c.root = j ∧ c.binEdges = .ok xs := by
  obtain ⟨l, rfl, h1, h2⟩ := WellFormed.sections h
  have hx : xs ≠ [] := by intro e; rw [e] at hv; cases hv; exact hne rfl
  unfold JsonConfig.make parseTofBinning
  rw [getChecked_two l _ _ h2, hm]
  simp only
  rw [asDoubles_ok vs xs hv]
  refine ⟨_, rfl, rfl, ?_⟩
  unfold JsonConfig.binEdges TofBinning.getBinEdges
  simp only
  rw [if_pos hx]

theorem getBinEdges_edges (t : TofBinning) (n : Nat) (m : F64) (hc : t.custom = []) (hn : n < 2 ^ 31 - 1)
    (hb : t.numBins = some (n : Int)) (hm : t.tofMax = some m) :
    ∃ edges, t.getBinEdges = .ok edges ∧ UniformEdges n m edges := by
  have : t.getBinEdges = .ok ((List.range (n + 1)).map (edgeAt m n)) := by
    unfold TofBinning.getBinEdges
    rw [if_neg (by simp [hc])]
    simp only [hb, hm, Option.getD_some]
    rw [if_neg (by omega), if_neg (by omega)]
    rfl
  refine ⟨_, this, by simp, ?_⟩
  intro i hi
  rw [List.getElem?_map, List.getElem?_range (by omega)]
  rfl

/-- C45: without explicit edges, uniform bins with the given or the default number and end. -/
theorem c45_uniform (j : Json) (h : WellFormed j) (u : List (String × Json))
    (he : memberAt j ["tof_imaging", "bin_edges"] = none) (hu : memberAt j ["tof_imaging", "uniform_bins"] = some (.obj u))
    (n : Nat) (hn : n < 2 ^ 31 - 1) (m : F64)
    (hnb : (u.lookup "num_bins" = none ∧ n = 1500) ∨ u.lookup "num_bins" = some (.uint (BitVec.ofNat 64 n)))
    (hend : (u.lookup "end" = none ∧ m = F64.ofRat (167 / 10000)) ∨ ∃ v, u.lookup "end" = some v ∧ IsDouble v m) :
    ∃ c edges, JsonConfig.make j = .ok c ∧ c.root = j ∧ c.binEdges = .ok edges ∧ UniformEdges n m edges := by
  obtain ⟨l, rfl, h1, h2⟩ := WellFormed.sections h
  have hN : (Json.obj u).valueKey "num_bins" Json.asInt 1500 = .ok (n : Int) := by
    unfold Json.valueKey
    simp only
    rcases hnb with ⟨hl, rfl⟩ | hl
    · rw [hl]; rfl
    · rw [hl]
      simp only [Json.asInt]
      congr 1
      rw [BitVec.toInt_eq_toNat_of_lt]
      · simp only [BitVec.toNat_setWidth, BitVec.toNat_ofNat]
        norm_cast
        omega
      · simp only [BitVec.toNat_setWidth, BitVec.toNat_ofNat]
        omega
  have hM : (Json.obj u).valueKey "end" Json.asDouble defaultTofMax = .ok m := by
    unfold Json.valueKey
    simp only
    rcases hend with ⟨hl, rfl⟩ | ⟨v, hl, hv⟩
    · rw [hl]; rfl
    · rw [hl]; exact IsDouble.asDouble hv
  unfold JsonConfig.make parseTofBinning
  rw [getChecked_two l _ _ h2, he]
  simp only
  rw [getChecked_two l _ _ h2, hu]
  simp only
  rw [hN]
  simp only [Res.bind]
  rw [hM]
  simp only
  obtain ⟨edges, e1, e2⟩ := getBinEdges_edges { TofBinning.default with numBins := some (n : Int), tofMax := some m } n m rfl hn rfl rfl
  exact ⟨_, edges, rfl, rfl, e1, e2⟩

theorem int32_cut (n : U64) (k : Int) (h : -2 ^ 31 ≤ k ∧ k < 2 ^ 31) (e : ∃ m : Int, n.toNat = k + m * 2 ^ 32) :
    (n.setWidth 32).toInt = k := by
  obtain ⟨m, e⟩ := e
  rw [BitVec.toInt_eq_toNat_cond, BitVec.toNat_setWidth]
  have := n.isLt
  split_ifs <;> omega

theorem IsInt32.asInt {v : Json} {k : Int} (h : IsInt32 v k) : v.asInt = .ok k := by
  cases h with
  | uint n k h e => rw [Json.asInt, int32_cut n k h e]
  | int n k h e =>
    rw [Json.asInt, int32_cut n k h]
    obtain ⟨m, e⟩ := e
    rw [BitVec.toInt_eq_toNat_cond] at e
    split_ifs at e
    · exact ⟨m, e⟩
    · exact ⟨m + 2 ^ 32, by push_cast at e ⊢; linarith⟩
  | float q k h e1 e2 =>
    have : F64.truncQ q = k := by
      unfold F64.truncQ
      split_ifs with h0
      · exact Int.floor_eq_iff.mpr ⟨(e1 h0).1, (e1 h0).2⟩
      · rw [Int.ceil_eq_iff]
        obtain ⟨a, b⟩ := e2 (not_le.mp h0)
        exact ⟨by linarith, a⟩
    rw [Json.asInt]
    unfold F64.toI32?
    simp only [this]
    rw [if_pos h]
  | true => rfl
  | false => rfl

/-- C45, any number of uniform bins that can be read as a 32-bit integer: no bins for 0, an exception below -1, no edges at all for -1,
and undefined behaviour for the largest. -/
theorem c45_num_bins (j : Json) (h : WellFormed j) (u : List (String × Json))
    (he : memberAt j ["tof_imaging", "bin_edges"] = none) (hu : memberAt j ["tof_imaging", "uniform_bins"] = some (.obj u))
    (v : Json) (k : Int) (hv : u.lookup "num_bins" = some v) (hk : IsInt32 v k) (m : F64)
    (hend : (u.lookup "end" = none ∧ m = F64.ofRat (167 / 10000)) ∨ ∃ v, u.lookup "end" = some v ∧ IsDouble v m) :
    ∃ c, JsonConfig.make j = .ok c ∧ c.root = j ∧
      (∀ n : Nat, k = n → n < 2 ^ 31 - 1 → ∃ edges, c.binEdges = .ok edges ∧ UniformEdges n m edges) ∧
      (k = -1 → c.binEdges = .ok []) ∧ (k < -1 → ∃ e, c.binEdges = .throws e) ∧
      (k = 2 ^ 31 - 1 → c.binEdges = .ub .signedOverflow) := by
  obtain ⟨l, rfl, h1, h2⟩ := WellFormed.sections h
  have hN : (Json.obj u).valueKey "num_bins" Json.asInt 1500 = .ok k := by
    unfold Json.valueKey
    simp only [hv]
    exact IsInt32.asInt hk
  have hM : (Json.obj u).valueKey "end" Json.asDouble defaultTofMax = .ok m := by
    unfold Json.valueKey
    simp only
    rcases hend with ⟨hl, rfl⟩ | ⟨v, hl, hv⟩
    · rw [hl]; rfl
    · rw [hl]; exact IsDouble.asDouble hv
  unfold JsonConfig.make parseTofBinning
  rw [getChecked_two l _ _ h2, he]
  simp only
  rw [getChecked_two l _ _ h2, hu]
  simp only
  rw [hN]
  simp only [Res.bind]
  rw [hM]
  simp only
  refine ⟨_, rfl, rfl, ?_, ?_, ?_, ?_⟩
  · rintro n rfl hn
    exact getBinEdges_edges { TofBinning.default with numBins := some (n : Int), tofMax := some m } n m rfl hn rfl rfl
  · rintro rfl; rfl
  · intro hlt
    unfold JsonConfig.binEdges TofBinning.getBinEdges
    rw [if_neg (by simp [TofBinning.default])]
    simp only [Option.getD_some]
    rw [if_neg (by omega), if_pos (by omega)]
    exact ⟨_, rfl⟩
  · rintro rfl; rfl

example : IsInt32 (.uint 4294967306#64) 10 ∧ IsInt32 (.int (BitVec.ofInt 64 (-3))) (-3) ∧ IsInt32 (.float (.fin (7 / 2))) 3 :=
  ⟨.uint _ _ (by norm_num) ⟨1, by decide⟩, .int _ _ (by norm_num) ⟨0, by decide⟩, .float _ _ (by norm_num) (by norm_num) (by norm_num)⟩

/-- C45: without any binning, 1500 bins up to 16.7 ms. -/
theorem c45_default_bins (j : Json) (h : WellFormed j) (he : memberAt j ["tof_imaging", "bin_edges"] = none)
    (hu : memberAt j ["tof_imaging", "uniform_bins"] = none) :
    ∃ c edges, JsonConfig.make j = .ok c ∧ c.root = j ∧ c.binEdges = .ok edges ∧
      UniformEdges 1500 (F64.ofRat (167 / 10000)) edges := by
  obtain ⟨l, rfl, h1, h2⟩ := WellFormed.sections h
  unfold JsonConfig.make parseTofBinning
  rw [getChecked_two l _ _ h2, he]
  simp only
  rw [getChecked_two l _ _ h2, hu]
  simp only [Res.bind]
  obtain ⟨edges, e1, e2⟩ := getBinEdges_edges { TofBinning.default with numBins := some 1500, tofMax := some defaultTofMax }
    1500 defaultTofMax rfl (by omega) rfl rfl
  exact ⟨_, edges, rfl, rfl, e1, e2⟩

/-- A configuration with all kinds of entries. -/
def exampleJson : Json := .obj [("abs", .obj [("radius", .float (.fin 3)), ("min_cluster_size", .uint 4#64)]),
  ("tof_imaging", .obj [("bin_edges", .arr [.uint 0#64, .float (.fin (1 / 2)), .uint 1#64]),
    ("uniform_bins", .obj [("num_bins", .uint 10#64)])])]

theorem exampleJson_wf : WellFormed exampleJson := by
  refine ⟨⟨_, rfl⟩, ?_, ?_⟩
  · intro v hv
    have : memberAt exampleJson ["abs"] = some (.obj [("radius", .float (.fin 3)), ("min_cluster_size", .uint 4#64)]) := by
      rw [exampleJson, memberAt_one]; rfl
    rw [this] at hv; injection hv with hv; exact ⟨_, hv.symm⟩
  · intro v hv
    have : memberAt exampleJson ["tof_imaging"] = some (.obj [("bin_edges", .arr [.uint 0#64, .float (.fin (1 / 2)), .uint 1#64]),
        ("uniform_bins", .obj [("num_bins", .uint 10#64)])]) := by
      rw [exampleJson, memberAt_one]; rfl
    rw [this] at hv; injection hv with hv; exact ⟨_, hv.symm⟩

example : ∃ c, JsonConfig.make exampleJson = .ok c ∧ c.radius = .ok (.fin 3) ∧ c.minClusterSize = .ok 4#64 ∧
    c.spiderTimeRange = .ok 75#64 ∧ c.binEdges = .ok [.fin 0, .fin (1 / 2), .fin 1] := by
  have hv : List.Forall₂ IsDouble [.uint 0#64, .float (.fin (1 / 2)), .uint 1#64] [.fin 0, .fin (1 / 2), .fin 1] := by
    refine .cons ?_ (.cons (.float _) (.cons ?_ .nil))
    · simpa using IsDouble.uint 0#64 (by decide)
    · simpa using IsDouble.uint 1#64 (by decide)
  have hm : memberAt exampleJson ["tof_imaging", "bin_edges"] = some (.arr [.uint 0#64, .float (.fin (1 / 2)), .uint 1#64]) := by
    rfl
  obtain ⟨c, h1, h2, h3⟩ := c45_edges_partial exampleJson exampleJson_wf _ _ hm hv (by simp)
  obtain ⟨r, b⟩ := c
  simp only at h2
  subst h2
  refine ⟨_, h1, ?_, ?_, ?_, h3⟩
  · exact (c45_values _ exampleJson_wf b).1 (.float (.fin 3)) _ rfl (.float _)
  · exact (c45_values _ exampleJson_wf b).2.1 4#64 rfl
  · exact (c45_defaults _ exampleJson_wf b).2.2.1 rfl

/-- C45 is false for an empty list of edges: neither it nor the uniform bins beside it nor the documented default are used,
but 1500 bins up to 1/60 s. -/
theorem c45_false_empty_edges (rest : List (String × Json)) :
    ∃ c edges, JsonConfig.make (.obj [("tof_imaging", .obj (("bin_edges", .arr []) :: rest))]) = .ok c ∧
      c.binEdges = .ok edges ∧ UniformEdges 1500 (F64.ofRat (1 / 60)) edges := by
  obtain ⟨edges, e1, e2⟩ := getBinEdges_edges TofBinning.default 1500 (F64.ofRat (1 / 60)) rfl (by omega) rfl rfl
  refine ⟨⟨.obj [("tof_imaging", .obj (("bin_edges", .arr []) :: rest))], TofBinning.default⟩, edges, ?_, e1, e2⟩
  unfold JsonConfig.make parseTofBinning
  rw [getChecked_two _ _ _ (by
    intro v hv
    simp at hv
    exact ⟨_, hv.symm⟩)]
  have : memberAt (.obj [("tof_imaging", .obj (("bin_edges", .arr []) :: rest))]) ["tof_imaging", "bin_edges"] = some (.arr []) := by
    rw [memberAt]; simp [memberAt]
  rw [this]
  rfl

/-- C45: a value of a wrong type is reported, not replaced by the default. -/
theorem c45_ill_typed (j : Json) (h : WellFormed j) (b : TofBinning) (s : String) :
    (memberAt j ["abs", "radius"] = some (.str s) → ∃ e, JsonConfig.radius ⟨j, b⟩ = .throws e) ∧
    (memberAt j ["abs", "min_cluster_size"] = some (.str s) → ∃ e, JsonConfig.minClusterSize ⟨j, b⟩ = .throws e) ∧
    (memberAt j ["abs", "spider_time_range"] = some (.str s) → ∃ e, JsonConfig.spiderTimeRange ⟨j, b⟩ = .throws e) ∧
    (memberAt j ["tof_imaging", "bin_edges"] = some (.str s) → ∃ e, JsonConfig.make j = .throws e) := by
  obtain ⟨l, rfl, h1, h2⟩ := WellFormed.sections h
  refine ⟨?_, ?_, ?_, ?_⟩
  · intro hm; unfold JsonConfig.radius; rw [value_two l _ _ h1, hm]; exact ⟨_, rfl⟩
  · intro hm; unfold JsonConfig.minClusterSize; rw [value_two l _ _ h1, hm]; exact ⟨_, rfl⟩
  · intro hm; unfold JsonConfig.spiderTimeRange; rw [value_two l _ _ h1, hm]; exact ⟨_, rfl⟩
  · intro hm
    unfold JsonConfig.make parseTofBinning
    rw [getChecked_two l _ _ h2, hm]
    exact ⟨_, rfl⟩

/-- C45: negative numbers are accepted and wrap: a minimal cluster size of -1 becomes 2^64 - 1. -/
theorem c45_negative_wraps (j : Json) (h : WellFormed j) (b : TofBinning)
    (hm : memberAt j ["abs", "min_cluster_size"] = some (.int (BitVec.ofInt 64 (-1)))) :
    JsonConfig.minClusterSize ⟨j, b⟩ = .ok 18446744073709551615#64 := by
  obtain ⟨l, rfl, h1, h2⟩ := WellFormed.sections h
  unfold JsonConfig.minClusterSize
  rw [value_two l _ _ h1, hm]
  simp only [Json.asU64]
  congr 1

theorem getChecked_section (l : List (String × Json)) (s t : String) (v : Json) (hv : memberAt (.obj l) [s] = some v)
    (hno : ∀ m, v ≠ .obj m) : ((∃ a, v = .arr a) → (Json.obj l).getChecked [s, t] = .parseError) ∧
      ((∀ a, v ≠ .arr a) → (Json.obj l).getChecked [s, t] = .outOfRange) := by
  rw [memberAt_one] at hv
  rw [Json.getChecked, hv]
  simp only
  cases v with
  | obj m => exact absurd rfl (hno m)
  | arr a => exact ⟨fun _ => rfl, fun h => absurd rfl (h a)⟩
  | _ => exact ⟨fun ⟨a, h⟩ => (by cases h), fun _ => rfl⟩

/-- C45 for sections that are no objects: a list in place of the section `abs` is reported when a setting is asked for, any other value is
taken for an absent section; in place of the section `tof_imaging` both are taken for an absent section when the bins are made. -/
theorem c45_sections (l : List (String × Json)) (b : TofBinning) (v : Json) (hno : ∀ m, v ≠ .obj m) :
    (memberAt (.obj l) ["abs"] = some v → (∃ a, v = .arr a) →
      JsonConfig.radius ⟨.obj l, b⟩ = .throws "parse_error.109" ∧ JsonConfig.minClusterSize ⟨.obj l, b⟩ = .throws "parse_error.109" ∧
      JsonConfig.spiderTimeRange ⟨.obj l, b⟩ = .throws "parse_error.109") ∧
    (memberAt (.obj l) ["abs"] = some v → (∀ a, v ≠ .arr a) →
      JsonConfig.radius ⟨.obj l, b⟩ = .ok (.fin 5) ∧ JsonConfig.minClusterSize ⟨.obj l, b⟩ = .ok 1#64 ∧
      JsonConfig.spiderTimeRange ⟨.obj l, b⟩ = .ok 75#64) ∧
    (memberAt (.obj l) ["tof_imaging"] = some v → (∃ a, v = .arr a) →
      JsonConfig.superResolution ⟨.obj l, b⟩ = .throws "parse_error.109") ∧
    (memberAt (.obj l) ["tof_imaging"] = some v → (∀ a, v ≠ .arr a) → JsonConfig.superResolution ⟨.obj l, b⟩ = .ok (.fin 1)) ∧
    (memberAt (.obj l) ["tof_imaging"] = some v → ∃ c edges, JsonConfig.make (.obj l) = .ok c ∧ c.root = .obj l ∧
      c.binEdges = .ok edges ∧ UniformEdges 1500 (F64.ofRat (167 / 10000)) edges) := by
  refine ⟨fun hm ha => ?_, fun hm ha => ?_, fun hm ha => ?_, fun hm ha => ?_, fun hm => ?_⟩
  · unfold JsonConfig.radius JsonConfig.minClusterSize JsonConfig.spiderTimeRange Json.value
    simp only [(getChecked_section l _ _ v hm hno).1 ha, and_self]
  · unfold JsonConfig.radius JsonConfig.minClusterSize JsonConfig.spiderTimeRange Json.value
    simp only [(getChecked_section l _ _ v hm hno).2 ha, and_self, ofRat5]
  · unfold JsonConfig.superResolution Json.value
    simp only [(getChecked_section l _ _ v hm hno).1 ha]
  · unfold JsonConfig.superResolution Json.value
    simp only [(getChecked_section l _ _ v hm hno).2 ha, ofRat1]
  · obtain ⟨edges, e1, e2⟩ := getBinEdges_edges { TofBinning.default with numBins := some 1500, tofMax := some defaultTofMax }
      1500 defaultTofMax rfl (by omega) rfl rfl
    refine ⟨⟨.obj l, _⟩, edges, ?_, rfl, e1, e2⟩
    unfold JsonConfig.make parseTofBinning
    by_cases ha : ∃ a, v = .arr a
    · rw [(getChecked_section l _ _ v hm hno).1 ha, (getChecked_section l _ _ v hm hno).1 ha]; rfl
    · have ha' : ∀ a, v ≠ .arr a := fun a e => ha ⟨a, e⟩
      rw [(getChecked_section l _ _ v hm hno).2 ha', (getChecked_section l _ _ v hm hno).2 ha']; rfl

/-- C45 for a configuration that is no object: the bins are the documented ones, and asking for another setting is reported. -/
theorem c45_no_object (j : Json) (hno : ∀ m, j ≠ .obj m) (b : TofBinning) :
    (∃ c edges, JsonConfig.make j = .ok c ∧ c.root = j ∧ c.binEdges = .ok edges ∧ UniformEdges 1500 (F64.ofRat (167 / 10000)) edges) ∧
    JsonConfig.radius ⟨j, b⟩ = .throws "type_error.306" ∧ JsonConfig.minClusterSize ⟨j, b⟩ = .throws "type_error.306" ∧
    JsonConfig.spiderTimeRange ⟨j, b⟩ = .throws "type_error.306" ∧ JsonConfig.superResolution ⟨j, b⟩ = .throws "type_error.306" := by
  obtain ⟨edges, e1, e2⟩ := getBinEdges_edges { TofBinning.default with numBins := some 1500, tofMax := some defaultTofMax }
    1500 defaultTofMax rfl (by omega) rfl rfl
  refine ⟨⟨⟨j, _⟩, edges, ?_, rfl, e1, e2⟩, ?_⟩
  · cases j with
    | obj m => exact absurd rfl (hno m)
    | _ => rfl
  · cases j with
    | obj m => exact absurd rfl (hno m)
    | _ => exact ⟨rfl, rfl, rfl, rfl⟩

/-- C45: uniform bins that are no object are reported. -/
theorem c45_uniform_kind (j : Json) (h : WellFormed j) (he : memberAt j ["tof_imaging", "bin_edges"] = none) (v : Json)
    (hv : memberAt j ["tof_imaging", "uniform_bins"] = some v) (hno : ∀ m, v ≠ .obj m) :
    JsonConfig.make j = .throws "type_error.306" := by
  obtain ⟨l, rfl, h1, h2⟩ := WellFormed.sections h
  unfold JsonConfig.make parseTofBinning
  rw [getChecked_two l _ _ h2, he]
  simp only
  rw [getChecked_two l _ _ h2, hv]
  simp only
  unfold Json.valueKey
  cases v with
  | obj m => exact absurd rfl (hno m)
  | _ => rfl

example : (∀ m, Json.arr [] ≠ .obj m) ∧ memberAt (.obj [("abs", .arr [])]) ["abs"] = some (.arr []) :=
  ⟨by rintro m ⟨⟩, rfl⟩

/-! ## C46 -/

theorem isSpace_iff (c : Char) : isSpace c = true ↔ Blank c := by unfold isSpace Blank; simp

theorem isDigit_iff (c : Char) : isDigit c = true ↔ Digit c := by unfold isDigit Digit; simp

theorem digitsVal_eq (l : List Char) : digitsVal l = numeral l := rfl

theorem takeWhile_split {p : Char → Bool} {a b : List Char} (ha : ∀ c ∈ a, p c = true) (hb : ∀ c ∈ b.head?, p c = false) :
    (a ++ b).takeWhile p = a ∧ (a ++ b).dropWhile p = b := by
  induction a with
  | nil =>
    cases b with
    | nil => simp
    | cons x b => have := hb x (by simp); simp [this]
  | cons x a ih =>
    have h1 := ha x (by simp)
    have h2 := ih (fun c hc => ha c (by simp [hc]))
    simp [h1, h2.1, h2.2]

theorem firstWord_eq {line name : List Char} {w1 tail : List Char} (hl : line = w1 ++ name ++ tail)
    (h1 : ∀ c ∈ w1, Blank c) (h2 : ∀ c ∈ name, ¬ Blank c) (h3 : ∀ c ∈ tail.head?, Blank c) (h4 : name = [] → tail = []) :
    firstWord line = (name, tail) := by
  have e1 : line.dropWhile isSpace = name ++ tail := by
    rw [hl, List.append_assoc]
    refine (takeWhile_split (fun c hc => (isSpace_iff c).2 (h1 c hc)) ?_).2
    intro c hc
    cases name with
    | nil => rw [h4 rfl] at hc; simp at hc
    | cons x name =>
      simp at hc
      subst hc
      have := h2 x (by simp)
      rw [← isSpace_iff] at this
      simpa using this
  have e2 := takeWhile_split (p := (!isSpace ·)) (a := name) (b := tail)
    (fun c hc => by have := h2 c hc; rw [← isSpace_iff] at this; simpa using this)
    (fun c hc => by have := h3 c hc; rw [← isSpace_iff] at this; simpa using this)
  unfold firstWord
  simp only [e1]
  rw [e2.1, e2.2]

theorem Setting.firstWord {line name val : List Char} (h : Setting line name val) :
    ∃ w2 tail, firstWord line = (name, w2 ++ (val ++ tail)) ∧ (∀ c ∈ w2, Blank c) ∧ (∀ c ∈ val, ¬ Blank c) ∧ val ≠ [] ∧
      (∀ c ∈ tail.head?, Blank c) := by
  obtain ⟨w1, w2, tail, hl, h1, h2, h3, h4, h5, h6, h7, h8⟩ := h
  refine ⟨w2, tail, ?_, h2, h6, h7, h8⟩
  refine firstWord_eq (w1 := w1) ?_ h1 h4 ?_ (fun e => absurd e h5)
  · rw [hl]; simp only [List.append_assoc]
  · intro c hc
    cases w2 with
    | nil => exact absurd rfl h3
    | cons x w2 => simp at hc; subst hc; exact h2 x (by simp)

/-- White space before a word is skipped. -/
theorem skip_blanks {w val tail : List Char} (h1 : ∀ c ∈ w, Blank c) (h2 : ∀ c ∈ val, ¬ Blank c) (h3 : val ≠ []) :
    (w ++ (val ++ tail)).dropWhile isSpace = val ++ tail := by
  refine (takeWhile_split (fun c hc => (isSpace_iff c).2 (h1 c hc)) ?_).2
  intro c hc
  cases val with
  | nil => exact absurd rfl h3
  | cons x val =>
    simp at hc
    subst hc
    have := h2 x (by simp)
    rw [← isSpace_iff] at this
    simpa using this

theorem blank_not_digit {c : Char} (h : Blank c) : isDigit c = false := by
  rcases h with rfl | rfl | rfl | rfl | rfl | rfl <;> decide

theorem digit_ne {c : Char} (h : Digit c) : c ≠ '-' ∧ c ≠ '+' := by
  constructor <;> (rintro rfl; revert h; unfold Digit; decide)

theorem takeSign_digit {c : Char} (h : Digit c) (l : List Char) : takeSign (c :: l) = (false, c :: l) := by
  obtain ⟨h1, h2⟩ := digit_ne h
  unfold takeSign
  split
  · next heq => injection heq with e; exact absurd e h1
  · next heq => injection heq with e; exact absurd e h2
  · rfl

theorem extractInt_eq {w val tail : List Char} {n : Nat} (h1 : ∀ c ∈ w, Blank c) (h2 : ∀ c ∈ val, ¬ Blank c)
    (h3 : ∀ c ∈ tail.head?, Blank c) (hi : Integer val n) (hn : n < 2 ^ 31) :
    extractInt (w ++ (val ++ tail)) = some (n : Int) := by
  obtain ⟨h4, h5, h6⟩ := hi
  unfold extractInt
  rw [skip_blanks h1 h2 h4]
  have e := (takeWhile_split (p := isDigit) (a := val) (b := tail) (fun c hc => (isDigit_iff c).2 (h5 c hc))
    (fun c hc => blank_not_digit (h3 c hc))).1
  cases val with
  | nil => exact absurd rfl h4
  | cons x val =>
    simp only [List.cons_append] at e ⊢
    rw [takeSign_digit (h5 x (by simp))]
    simp only
    rw [e, digitsVal_eq, h6]
    simp only [Bool.false_eq_true, if_false]
    congr 1
    simp only [Nat.reducePow] at hn
    omega

theorem takeExp_blank {tail : List Char} (h3 : ∀ c ∈ tail.head?, Blank c) : takeExp tail = some 0 := by
  cases tail with
  | nil => rfl
  | cons c l =>
    have := h3 c (by simp)
    unfold takeExp
    simp only
    rw [if_neg]
    rintro (rfl | rfl) <;> (revert this; unfold Blank; decide)

theorem noPoint {tail : List Char} (h3 : ∀ c ∈ tail.head?, Blank c) : takeFrac tail = ([], tail) := by
  unfold takeFrac
  split
  · next r =>
    have h : ¬ Blank '.' := by unfold Blank; decide
    exact absurd (h3 '.' (by simp)) h
  · rfl

theorem takeSign_sign {sign l : List Char} (hs : sign = [] ∨ sign = ['+'] ∨ sign = ['-'])
    (hl : ∀ c ∈ l.head?, c ≠ '-' ∧ c ≠ '+') : takeSign (sign ++ l) = (decide (sign = ['-']), l) := by
  rcases hs with rfl | rfl | rfl
  · cases l with
    | nil => rfl
    | cons c l =>
      obtain ⟨h1, h2⟩ := hl c (by simp)
      rw [List.nil_append]
      unfold takeSign
      split
      · next heq => injection heq with e; exact absurd e h1
      · next heq => injection heq with e; exact absurd e h2
      · rfl
  · rfl
  · rfl

theorem takeExp_text {te tail : List Char} {e : Int} (h : te = [] ∧ e = 0 ∨ Exponent te e) (h3 : ∀ c ∈ tail.head?, Blank c) :
    takeExp (te ++ tail) = some e := by
  rcases h with ⟨rfl, rfl⟩ | ⟨c, s, ds, rfl, hc, hne, hd, hs⟩
  · exact takeExp_blank h3
  · have h1 : (s = [] ∨ s = ['+'] ∨ s = ['-']) := by tauto
    have h2 := takeSign_sign h1 (l := ds ++ tail) (by
      intro d hd'
      cases ds with
      | nil => exact absurd rfl hne
      | cons x ds =>
        simp only [List.cons_append, List.head?_cons, Option.mem_some_iff] at hd'
        subst hd'
        exact digit_ne (hd _ (by simp)))
    have h4 := (takeWhile_split (p := isDigit) (a := ds) (b := tail) (fun c hc => (isDigit_iff c).2 (hd c hc))
      (fun c hc => blank_not_digit (h3 c hc))).1
    simp only [List.cons_append, List.append_assoc, takeExp]
    rw [if_pos hc, h2]
    simp only
    rw [h4, if_neg hne]
    rcases hs with ⟨hs, rfl⟩ | ⟨hs, rfl⟩
    · rw [if_neg (by rcases hs with rfl | rfl <;> decide)]; rfl
    · rw [if_pos (by subst hs; decide)]; rfl

theorem exp_head {te tail : List Char} {e : Int} (h : te = [] ∧ e = 0 ∨ Exponent te e) (h3 : ∀ c ∈ tail.head?, Blank c) :
    ∀ c ∈ (te ++ tail).head?, ¬ Digit c ∧ c ≠ '.' ∧ c ≠ '-' ∧ c ≠ '+' := by
  intro c hc
  rcases h with ⟨rfl, -⟩ | ⟨d, s, ds, rfl, hd, -⟩
  · have hb := h3 c hc
    refine ⟨?_, ?_, ?_, ?_⟩
    · intro hd
      have := blank_not_digit hb
      rw [(isDigit_iff c).2 hd] at this
      simp at this
    · rintro rfl; revert hb; unfold Blank; decide
    · rintro rfl; revert hb; unfold Blank; decide
    · rintro rfl; revert hb; unfold Blank; decide
  · simp only [List.cons_append, List.head?_cons, Option.mem_some_iff] at hc
    subst hc
    rcases hd with rfl | rfl <;> exact ⟨by unfold Digit; decide, by decide, by decide, by decide⟩

theorem extractDouble_value {w val tail : List Char} {q : ℚ} (h1 : ∀ c ∈ w, Blank c) (h2 : ∀ c ∈ val, ¬ Blank c)
    (h3 : ∀ c ∈ tail.head?, Blank c) (hd : Decimal val q) :
    extractDouble (w ++ (val ++ tail)) = some (match F64.ofRat q with
      | .inf s => .fin (if s then -maxDouble else maxDouble)
      | x => x) := by
  obtain ⟨sign, ip, tf, fp, te, e, hsg, hip, hdi, hdf, htf, hte, hv, hqv⟩ := hd
  have hne : val ≠ [] := by
    intro e0
    rw [e0] at hv
    have := congrArg List.length hv
    simp only [List.length_append, List.length_nil] at this
    have hi0 : ip = [] := List.length_eq_zero_iff.1 (by omega)
    have ht0 : tf = [] := List.length_eq_zero_iff.1 (by omega)
    apply hip
    rcases htf with ⟨-, hf⟩ | hf
    · rw [hi0, hf]; rfl
    · rw [ht0] at hf; simp at hf
  unfold extractDouble
  rw [skip_blanks h1 h2 hne]
  have hexp := exp_head hte h3
  have htail : ∀ c ∈ (tf ++ (te ++ tail)).head?, ¬ Digit c ∧ c ≠ '-' ∧ c ≠ '+' := by
    intro c hc
    rcases htf with ⟨rfl, -⟩ | rfl
    · obtain ⟨a, -, b⟩ := hexp c hc; exact ⟨a, b⟩
    · simp only [List.cons_append, List.head?_cons, Option.mem_some_iff] at hc
      subst hc
      exact ⟨by unfold Digit; decide, by decide, by decide⟩
  have hs := takeSign_sign hsg (l := ip ++ (tf ++ (te ++ tail))) (by
    intro c hc
    cases ip with
    | nil => exact (htail c hc).2
    | cons x ip =>
      simp only [List.cons_append, List.head?_cons, Option.mem_some_iff] at hc
      subst hc
      exact digit_ne (hdi _ (by simp)))
  have hval : val ++ tail = sign ++ (ip ++ (tf ++ (te ++ tail))) := by rw [hv]; simp
  have hcons : ∃ c cs, val ++ tail = c :: cs := by
    cases val with
    | nil => exact absurd rfl hne
    | cons x val => exact ⟨_, _, rfl⟩
  obtain ⟨c, cs, e1⟩ := hcons
  rw [e1]
  simp only
  rw [← e1, hval, hs]
  simp only
  have hnd : ∀ {c : Char}, ¬ Digit c → isDigit c = false := by
    intro c hc
    cases hb : isDigit c with
    | false => rfl
    | true => exact absurd ((isDigit_iff c).1 hb) hc
  have hip2 := takeWhile_split (p := isDigit) (a := ip) (b := tf ++ (te ++ tail))
    (fun c hc => (isDigit_iff c).2 (hdi c hc)) (fun c hc => hnd (htail c hc).1)
  rw [hip2.1, hip2.2]
  have hfrac : takeFrac (tf ++ (te ++ tail)) = (fp, te ++ tail) := by
    rcases htf with ⟨rfl, rfl⟩ | rfl
    · rw [List.nil_append]
      unfold takeFrac
      split
      · next r heq => exact absurd rfl (hexp '.' (by rw [heq]; simp)).2.1
      · rfl
    · have hfp := takeWhile_split (p := isDigit) (a := fp) (b := te ++ tail) (fun c hc => (isDigit_iff c).2 (hdf c hc))
        (fun c hc => hnd (hexp c hc).1)
      simp only [List.cons_append, takeFrac]
      rw [hfp.1, hfp.2]
  rw [hfrac]
  simp only
  rw [if_neg hip, takeExp_text hte h3]
  simp only
  have hqq : (if decide (sign = ['-']) = true then -((digitsVal (ip ++ fp) : ℚ) / 10 ^ fp.length * (10 : ℚ) ^ e)
      else (digitsVal (ip ++ fp) : ℚ) / 10 ^ fp.length * (10 : ℚ) ^ e) = q := by
    rw [hqv, digitsVal_eq]
    unfold decimal
    by_cases hm : sign = ['-']
    · simp [hm]
    · simp [hm]
  rw [hqq]
  cases F64.ofRat q <;> rfl

theorem extractDouble_eq {w val tail : List Char} {q : ℚ} (h1 : ∀ c ∈ w, Blank c) (h2 : ∀ c ∈ val, ¬ Blank c)
    (h3 : ∀ c ∈ tail.head?, Blank c) (hd : Decimal val q) (hq : |q| ≤ 2 ^ 1000) :
    extractDouble (w ++ (val ++ tail)) = some (F64.ofRat q) := by
  rw [extractDouble_value h1 h2 h3 hd, F64.ofRat_fin hq]

theorem userLines_append (c : UserConfig) (ls : List (List Char)) (l : List Char) :
    userLines c (ls ++ [l]) = (userLines c ls).bind fun c => userLine c l := by
  induction ls generalizing c with
  | nil => simp only [List.nil_append, userLines, Res.bind]; cases userLine c l <;> rfl
  | cons x ls ih =>
    simp only [List.cons_append, userLines]
    cases userLine c x with
    | ok d => simp only [Res.bind]; exact ih d
    | throws e => rfl
    | ub e => rfl

theorem userLine_radius {line : List Char} {x : F64} (h : GivesRadius line x) (c : UserConfig) :
    userLine c line = .ok { c with radius := x } := by
  obtain ⟨val, q, hs, hd, hq, rfl⟩ := h
  obtain ⟨w2, tail, e, h1, h2, h3, h4⟩ := Setting.firstWord hs
  unfold userLine
  rw [e]
  simp only
  rw [if_neg (by decide), if_pos trivial, extractDouble_eq h1 h2 h4 hd hq]

theorem userLine_size {line : List Char} {x : U64} (h : GivesCount "abs_min_cluster_size" line x) (c : UserConfig) :
    userLine c line = .ok { c with minClusterSize := x } := by
  obtain ⟨val, n, hs, hd, hq, rfl⟩ := h
  obtain ⟨w2, tail, e, h1, h2, h3, h4⟩ := Setting.firstWord hs
  unfold userLine
  rw [e]
  simp only
  rw [if_neg (by decide), if_neg (by decide), if_pos trivial, extractInt_eq h1 h2 h4 hd hq]
  simp only [intToU64]
  congr 2

theorem userLine_range {line : List Char} {x : U64} (h : GivesCount "spider_time_range" line x) (c : UserConfig) :
    userLine c line = .ok { c with spiderTimeRange := x } := by
  obtain ⟨val, n, hs, hd, hq, rfl⟩ := h
  obtain ⟨w2, tail, e, h1, h2, h3, h4⟩ := Setting.firstWord hs
  unfold userLine
  rw [e]
  simp only
  rw [if_neg (by decide), if_neg (by decide), if_neg (by decide), if_pos trivial, extractInt_eq h1 h2 h4 hd hq]
  simp only [intToU64]
  congr 2

theorem userLine_neutral {line : List Char} (h : Neutral line) (c : UserConfig) : userLine c line = .ok c := by
  obtain ⟨name, ⟨w1, tail, hl, h1, h2, h3, h4⟩, n1, n2, n3⟩ := h
  unfold userLine
  rw [firstWord_eq hl h1 h2 h3 h4]
  simp only
  rw [if_neg n1, if_neg n2, if_neg n3]
  split <;> rfl

theorem neutral_word {line name val : List Char} (h : Neutral line) (hs : Setting line name val) :
    name ≠ "abs_radius".toList ∧ name ≠ "abs_min_cluster_size".toList ∧ name ≠ "spider_time_range".toList := by
  obtain ⟨nm, ⟨w1, tail, hl, h1, h2, h3, h4⟩, n⟩ := h
  obtain ⟨w2, tl, e, -⟩ := Setting.firstWord hs
  rw [firstWord_eq hl h1 h2 h3 h4] at e
  injection e with e _
  exact e ▸ n

theorem setting_name_unique {line n1 v1 n2 v2 : List Char} (h1 : Setting line n1 v1) (h2 : Setting line n2 v2) :
    n1 = n2 := by
  obtain ⟨_, _, e1, -⟩ := Setting.firstWord h1
  obtain ⟨_, _, e2, -⟩ := Setting.firstWord h2
  rw [e1] at e2
  injection e2

/-- A line the format describes. -/
def GoodLine (line : List Char) : Prop :=
  (∃ x, GivesRadius line x) ∨ (∃ x, GivesCount "abs_min_cluster_size" line x) ∨
    (∃ x, GivesCount "spider_time_range" line x) ∨ Neutral line

/-- C46: each setting has the value of its last line, or its default.
Missing: the time-of-flight settings (`c46_false_no_effect`), lines without a value and malformed values
(`c46_false_missing`, `c46_false_garbage`, `c46_negative_wraps`). -/
theorem c46_last_partial (ls : List (List Char)) (h : ∀ l ∈ ls, GoodLine l) :
    ∃ c, userLines UserConfig.default ls = .ok c ∧
      LastValue GivesRadius (.fin 5) ls c.radius ∧
      LastValue (GivesCount "abs_min_cluster_size") 1#64 ls c.minClusterSize ∧
      LastValue (GivesCount "spider_time_range") 75#64 ls c.spiderTimeRange := by
  induction ls using List.reverseRecOn with
  | nil =>
    refine ⟨_, rfl, ?_, .none, .none⟩
    have : UserConfig.default.radius = .fin 5 := ofRat5
    rw [this]
    exact .none
  | append_singleton ls l ih =>
    obtain ⟨c, h1, h2, h3, h4⟩ := ih (fun x hx => h x (by simp [hx]))
    have hstep : ∀ d, userLine c l = .ok d → userLines UserConfig.default (ls ++ [l]) = .ok d := by
      intro d hd
      rw [userLines_append, h1]
      exact hd
    rcases h l (by simp) with ⟨x, hx⟩ | ⟨x, hx⟩ | ⟨x, hx⟩ | hx
    · refine ⟨_, hstep _ (userLine_radius hx c), .set hx, .skip ?_ h3, .skip ?_ h4⟩
      · rintro w ⟨_, _, hs, -⟩
        obtain ⟨_, _, hs', -⟩ := hx
        exact absurd (setting_name_unique hs hs') (by decide)
      · rintro w ⟨_, _, hs, -⟩
        obtain ⟨_, _, hs', -⟩ := hx
        exact absurd (setting_name_unique hs hs') (by decide)
    · refine ⟨_, hstep _ (userLine_size hx c), .skip ?_ h2, .set hx, .skip ?_ h4⟩
      · rintro w ⟨_, _, hs, -⟩
        obtain ⟨_, _, hs', -⟩ := hx
        exact absurd (setting_name_unique hs hs') (by decide)
      · rintro w ⟨_, _, hs, -⟩
        obtain ⟨_, _, hs', -⟩ := hx
        exact absurd (setting_name_unique hs hs') (by decide)
    · refine ⟨_, hstep _ (userLine_range hx c), .skip ?_ h2, .skip ?_ h3, .set hx⟩
      · rintro w ⟨_, _, hs, -⟩
        obtain ⟨_, _, hs', -⟩ := hx
        exact absurd (setting_name_unique hs hs') (by decide)
      · rintro w ⟨_, _, hs, -⟩
        obtain ⟨_, _, hs', -⟩ := hx
        exact absurd (setting_name_unique hs hs') (by decide)
    · refine ⟨_, hstep _ (userLine_neutral hx c), .skip ?_ h2, .skip ?_ h3, .skip ?_ h4⟩
      · rintro w ⟨_, _, hs, -⟩; exact (neutral_word hx hs).1 rfl
      · rintro w ⟨_, _, hs, -⟩; exact (neutral_word hx hs).2.1 rfl
      · rintro w ⟨_, _, hs, -⟩; exact (neutral_word hx hs).2.2 rfl

/-- The value of the last line is unique, so `c46_last_partial` determines the configuration. -/
theorem c46_last_unique {α : Type} (gives : List Char → α → Prop) (hg : ∀ l v w, gives l v → gives l w → v = w)
    (d : α) (ls : List (List Char)) (v w : α) (hv : LastValue gives d ls v) (hw : LastValue gives d ls w) : v = w := by
  induction hv with
  | none =>
    generalize hl : ([] : List (List Char)) = l0 at hw
    cases hw with
    | none => rfl
    | set _ => simp at hl
    | skip _ _ => simp at hl
  | @set ls l v h1 =>
    generalize hl : ls ++ [l] = l0 at hw
    cases hw with
    | none => simp at hl
    | set h2 =>
      have := List.append_inj' hl rfl
      simp at this
      rw [← this.2] at h2
      exact hg _ _ _ h1 h2
    | skip h2 _ =>
      have := List.append_inj' hl rfl
      simp at this
      rw [← this.2] at h2
      exact absurd h1 (h2 v)
  | @skip ls l v h1 h2 ih =>
    generalize hl : ls ++ [l] = l0 at hw
    cases hw with
    | none => simp at hl
    | set h3 =>
      have := List.append_inj' hl rfl
      simp at this
      rw [← this.2] at h3
      exact absurd h3 (h1 w)
    | skip _ h3 =>
      have := List.append_inj' hl rfl
      rw [← this.1] at h3
      exact ih h3

/-- A file with a repeated setting, a comment and an unknown name. -/
example : ∀ l ∈ ["abs_radius 25e-1".toList, "# abs_radius 9".toList, " abs_radius\t7 # larger".toList, "".toList,
    "spider_time_range 100".toList, "name x".toList], GoodLine l := by
  intro l hl
  simp only [List.mem_cons, List.not_mem_nil, or_false] at hl
  rcases hl with rfl | rfl | rfl | rfl | rfl | rfl
  · refine .inl ⟨_, "25e-1".toList, 5 / 2, ⟨[], [' '], [], ?_⟩, ⟨[], ['2', '5'], [], [], ['e', '-', '1'], -1, ?_⟩, ?_, rfl⟩
    · unfold Blank; decide
    · refine ⟨by simp, by simp, by unfold Digit; decide, by simp, by simp,
        .inr ⟨'e', ['-'], ['1'], rfl, by simp, by simp, by unfold Digit; decide, .inr ⟨rfl, by decide⟩⟩, by decide, ?_⟩
      have : numeral (['2', '5'] ++ []) = 25 := by decide
      unfold decimal
      rw [this]; norm_num
    · rw [abs_of_pos (by norm_num)]; exact le_trans (by norm_num : (5 / 2 : ℚ) ≤ 2 ^ 2) (pow_le_pow_right₀ (by norm_num) (by omega))
  · refine .inr (.inr (.inr ⟨['#'], ⟨[], " abs_radius 9".toList, ?_⟩, ?_⟩))
    · unfold Blank; decide
    · decide
  · refine .inl ⟨_, "7".toList, 7, ⟨[' '], ['\t'], " # larger".toList, ?_⟩, ⟨[], ['7'], [], [], [], 0, ?_⟩, ?_, rfl⟩
    · unfold Blank; decide
    · refine ⟨by simp, by simp, by unfold Digit; decide, by simp, by simp, by simp, by decide, ?_⟩
      have : numeral (['7'] ++ []) = 7 := by decide
      unfold decimal
      rw [this]; norm_num
    · rw [abs_of_pos (by norm_num)]; exact le_trans (by norm_num : (7 : ℚ) ≤ 2 ^ 3) (pow_le_pow_right₀ (by norm_num) (by omega))
  · refine .inr (.inr (.inr ⟨[], ⟨[], [], ?_⟩, ?_⟩))
    · unfold Blank; decide
    · decide
  · refine .inr (.inr (.inl ⟨_, "100".toList, 100, ⟨[], [' '], [], ?_⟩, ⟨?_, ?_, ?_⟩, ?_, rfl⟩))
    · unfold Blank; decide
    · decide
    · unfold Digit; decide
    · decide
    · decide
  · refine .inr (.inr (.inr ⟨"name".toList, ⟨[], " x".toList, ?_⟩, ?_⟩))
    · unfold Blank; decide
    · decide

/-- C46 is false for the time-of-flight settings: their lines are read without effect. -/
theorem c46_false_no_effect (c : UserConfig) (name val line : List Char)
    (hn : name = "tof_bins".toList ∨ name = "tof_max".toList) (h : Setting line name val) : userLine c line = .ok c := by
  obtain ⟨w2, tail, e, -⟩ := Setting.firstWord h
  unfold userLine
  rw [e]
  rcases hn with rfl | rfl <;> simp only <;> rw [if_neg (by decide), if_neg (by decide), if_neg (by decide), if_neg (by decide)]

example : Setting "tof_bins 10".toList "tof_bins".toList "10".toList :=
  ⟨[], [' '], [], by unfold Blank; decide⟩

/-- C46 is false for a name without a value: the configuration takes an indeterminate value. -/
theorem c46_false_missing (c : UserConfig) : userLine c "abs_radius".toList = .ub .indeterminate ∧
    userLine c "abs_min_cluster_size ".toList = .ub .indeterminate ∧
    userLine c "spider_time_range".toList = .ub .indeterminate := ⟨rfl, rfl, rfl⟩

/-- C46: a value that is no number is taken as 0 without any report. -/
theorem c46_false_garbage (c : UserConfig) :
    userLine c "abs_min_cluster_size many".toList = .ok { c with minClusterSize := 0#64 } ∧
    userLine c "abs_radius wide".toList = .ok { c with radius := .fin 0 } := ⟨rfl, rfl⟩

/-- C46: a negative size wraps to 2^64 - 1, and one beyond an `int` becomes 2^31 - 1. -/
theorem c46_negative_wraps (c : UserConfig) :
    userLine c "abs_min_cluster_size -1".toList = .ok { c with minClusterSize := 18446744073709551615#64 } ∧
    userLine c "abs_min_cluster_size 3000000000".toList = .ok { c with minClusterSize := 2147483647#64 } := by
  constructor
  · have h : extractInt " -1".toList = some (-1) := by decide
    unfold userLine
    have e : firstWord "abs_min_cluster_size -1".toList = ("abs_min_cluster_size".toList, " -1".toList) := by decide
    rw [e]
    simp only
    rw [if_neg (by decide), if_neg (by decide), if_pos trivial, h]
    rfl
  · have h : extractInt " 3000000000".toList = some 2147483647 := by decide
    unfold userLine
    have e : firstWord "abs_min_cluster_size 3000000000".toList = ("abs_min_cluster_size".toList, " 3000000000".toList) := by decide
    rw [e]
    simp only
    rw [if_neg (by decide), if_neg (by decide), if_pos trivial, h]
    rfl

theorem maxDouble_largest {p : ℚ} (h : F64.ofRat p = .fin p) : p ≤ maxDouble := by
  have hu : (0 : ℚ) < 2 ^ (971 : ℤ) := two_zpow_pos _
  have e23 : (2 : ℚ) ^ (1023 : ℤ) = 2 ^ 52 * 2 ^ (971 : ℤ) := by
    rw [show (1023 : ℤ) = 52 + 971 by norm_num, zpow_add₀ (by norm_num)]; norm_num
  have e24 : (2 : ℚ) ^ (1024 : ℤ) = 2 ^ 53 * 2 ^ (971 : ℤ) := by
    rw [show (1024 : ℤ) = 53 + 971 by norm_num, zpow_add₀ (by norm_num)]; norm_num
  rcases lt_or_ge p (2 ^ (1023 : ℤ)) with hp | hp
  · rw [e23] at hp
    unfold maxDouble
    exact hp.le.trans (mul_le_mul_of_nonneg_right (by norm_num) hu.le)
  · have hp0 : 0 < p := lt_of_lt_of_le (two_zpow_pos _) hp
    unfold F64.ofRat at h
    simp only at h
    by_cases hb : (2 : ℚ) ^ (1024 : ℤ) ≤ |rndQ p|
    · rw [if_pos hb] at h; exact absurd h (by simp)
    · rw [if_neg hb] at h
      rw [F64.fin.injEq] at h
      rw [h, abs_of_pos hp0, not_le] at hb
      have hlog : Int.log 2 p = 1023 := by
        apply le_antisymm
        · have := (Int.lt_zpow_iff_log_lt (b := 2) (by norm_num) hp0 (x := 1024)).mp (by exact_mod_cast hb)
          omega
        · exact (Int.zpow_le_iff_le_log (b := 2) (by norm_num) hp0).mp (by exact_mod_cast hp)
      have hexp : ulpExp p = 971 := by
        unfold ulpExp
        rw [abs_of_pos hp0, hlog]
        norm_num
      unfold rndQ at h
      rw [if_neg hp0.ne', hexp] at h
      generalize roundNE (p / 2 ^ (971 : ℤ)) = n at h
      unfold maxDouble
      rw [← h] at hb ⊢
      rw [e24] at hb
      have hn : (n : ℚ) < 2 ^ 53 := lt_of_mul_lt_mul_right hb hu.le
      have hn' : n < 2 ^ 53 := by exact_mod_cast hn
      have : (n : ℚ) ≤ 2 ^ 53 - 1 := by
        have : n ≤ 2 ^ 53 - 1 := by omega
        exact_mod_cast this
      exact mul_le_mul_of_nonneg_right this hu.le

/-- C46: a radius too large for a `double` is taken as the largest finite `double`. -/
theorem c46_overflow (c : UserConfig) (line val : List Char) (q : ℚ) (h : Setting line "abs_radius".toList val) (hd : Decimal val q)
    (hq : 2 ^ (1024 : ℤ) ≤ q) :
    ∃ M, userLine c line = .ok { c with radius := .fin M } ∧ F64.ofRat M = .fin M ∧ ∀ p, F64.ofRat p = .fin p → p ≤ M := by
  have hu : (0 : ℚ) < 2 ^ (971 : ℤ) := two_zpow_pos _
  have e24 : (2 : ℚ) ^ (1024 : ℤ) = 2 ^ 53 * 2 ^ (971 : ℤ) := by
    rw [show (1024 : ℤ) = 53 + 971 by norm_num, zpow_add₀ (by norm_num)]; norm_num
  refine ⟨maxDouble, ?_, ?_, fun p => maxDouble_largest⟩
  · obtain ⟨w2, tail, e, h1, h2, h3, h4⟩ := Setting.firstWord h
    unfold userLine
    rw [e]
    simp only
    have hr : (2 : ℚ) ^ (1024 : ℤ) ≤ rndQ q := by
      have := rndQ_mono hq
      rwa [rndQ_of_grid 1 1024 (by norm_num) (by norm_num) (by norm_num)] at this
    have hi : F64.ofRat q = .inf false := by
      unfold F64.ofRat
      simp only
      rw [if_pos (le_trans hr (le_abs_self _))]
      have : ¬ q < 0 := not_lt.mpr (le_trans (two_zpow_pos _).le hq)
      simp [this]
    rw [if_neg (by decide), if_pos trivial, extractDouble_value h1 h2 h4 hd, hi]
    rfl
  · unfold F64.ofRat
    simp only
    have hm : ((2 ^ 53 - 1 : ℤ) : ℚ) = 2 ^ 53 - 1 := by norm_num
    have hM : rndQ maxDouble = maxDouble := rndQ_of_grid (2 ^ 53 - 1) 971 (by unfold maxDouble; rw [hm]) (by norm_num) (by norm_num)
    rw [hM, if_neg]
    rw [not_le, e24, abs_of_nonneg (by unfold maxDouble; exact mul_nonneg (by norm_num) hu.le)]
    unfold maxDouble
    exact mul_lt_mul_of_pos_right (by norm_num) hu

example : Setting "abs_radius 1e400".toList "abs_radius".toList "1e400".toList ∧ Decimal "1e400".toList (10 ^ 400) ∧
    (2 : ℚ) ^ (1024 : ℤ) ≤ 10 ^ 400 := by
  refine ⟨⟨[], [' '], [], by unfold Blank; decide⟩, ⟨[], ['1'], [], [], "e400".toList, 400, .inl rfl, by simp, by unfold Digit; decide, by simp,
    .inl ⟨rfl, rfl⟩, .inr ⟨'e', [], "400".toList, rfl, .inl rfl, by decide, by unfold Digit; decide, .inl ⟨.inl rfl, by decide⟩⟩, rfl, ?_⟩, ?_⟩
  · unfold decimal
    have : numeral (['1'] ++ []) = 1 := by decide
    rw [this]
    simp
  · calc (2 : ℚ) ^ (1024 : ℤ) = ((2 : ℚ) ^ 16) ^ 64 := by rw [← pow_mul]; exact zpow_natCast 2 1024
      _ ≤ (10 ^ 5) ^ 64 := pow_le_pow_left₀ (by norm_num) (by norm_num) _
      _ = 10 ^ (5 * 64) := (pow_mul _ _ _).symm
      _ ≤ 10 ^ 400 := pow_le_pow_right₀ (by norm_num) (by norm_num)

end Verif.Props
