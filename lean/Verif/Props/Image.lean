import Verif.Lemmas.Image

/-!
# Time-of-flight images (C35–C38)
-/

namespace Verif.Props

open Verif Verif.Spec

/-! ### The entries of a batch -/

/-- Every hit that is looked at has a time of flight. -/
def TofDefined (mode : String) (bs : List EventBatch) : Prop :=
  mode = "hit" → ∀ b ∈ bs, ∀ h ∈ b.batch.hits, h.tof ≠ none

theorem tofNs_exact (h : Hit) (t : U32) (ht : h.tof = some t) : h.tofNs = some (.fin (25 * t.toNat)) := by
  have hlt := t.isLt
  unfold Hit.tofNs
  have h25 : F64.ofRat 25 = .fin 25 := by simpa using F64.ofRat_int (n := 25) (by norm_num)
  rw [ht, Option.map_some, F64.ofInt_exact (by rw [abs_of_nonneg (by omega)]; omega), h25]
  simp only [Option.some.injEq, F64.mul]
  have := F64.ofRat_int (n := 25 * t.toNat) (by rw [abs_of_nonneg (by omega)]; omega)
  push_cast at this
  push_cast
  rw [mul_comm, this]

theorem hit_entry (h : Hit) (t : U32) (ht : h.tof = some t) :
    h.entry = .ok ⟨F64.ofInt h.x, F64.ofInt h.y, .fin (25 * t.toNat)⟩ ∧
    hitEntry h = some ⟨F64.ofInt h.x, F64.ofInt h.y, .fin (25 * t.toNat)⟩ := by
  constructor
  · unfold Hit.entry; rw [tofNs_exact h t ht]
  · unfold hitEntry; rw [ht]; rfl

theorem mapM_entry (hs : List Hit) :
    (∀ h ∈ hs, h.tof ≠ none) ∧ hs.mapM Hit.entry = .ok (hs.filterMap hitEntry) ∨
    (∃ h ∈ hs, h.tof = none) ∧ hs.mapM Hit.entry = .ub .indeterminate := by
  induction hs with
  | nil => left; exact ⟨by simp, rfl⟩
  | cons h hs ih =>
    rw [List.mapM_cons]
    cases ht : h.tof with
    | none =>
      right
      refine ⟨⟨h, by simp, ht⟩, ?_⟩
      have : h.entry = .ub .indeterminate := by unfold Hit.entry Hit.tofNs; rw [ht]; rfl
      rw [this]; rfl
    | some t =>
      rw [(hit_entry h t ht).1]
      rcases ih with ⟨i1, i2⟩ | ⟨⟨h', hm, hn⟩, i2⟩
      · left
        refine ⟨?_, ?_⟩
        · intro h' hm
          rcases List.mem_cons.mp hm with rfl | hm
          · rw [ht]; simp
          · exact i1 h' hm
        · rw [i2, List.filterMap_cons, (hit_entry h t ht).2]; rfl
      · right
        exact ⟨⟨h', by simp [hm], hn⟩, by rw [i2]; rfl⟩

theorem neutron_entry (n : Neutron) : n.entry = ⟨n.x, n.y, F64.mul n.tof (.fin 25)⟩ := by
  have h25 : F64.ofRat 25 = .fin 25 := by simpa using F64.ofRat_int (n := 25) (by norm_num)
  unfold Neutron.entry Neutron.tofNs
  rw [h25]

theorem entriesOf_eq (mode : String) (b : EventBatch) :
    TofDefined mode [b] ∧ entriesOf mode b = .ok (entryList mode [b]) ∨
    ¬ TofDefined mode [b] ∧ entriesOf mode b = .ub .indeterminate := by
  unfold entriesOf entryList TofDefined
  by_cases hm : mode = "hit"
  · rw [if_pos hm]
    rcases mapM_entry b.batch.hits with ⟨h1, h2⟩ | ⟨⟨h, h1, h1'⟩, h2⟩
    · left
      refine ⟨?_, ?_⟩
      · intro _ b' hb'
        rw [List.mem_singleton] at hb'
        subst hb'; exact h1
      · rw [h2]; simp [hm]
    · right
      exact ⟨fun hh => hh hm b (by simp) h h1 h1', h2⟩
  · left
    refine ⟨fun h => absurd h hm, ?_⟩
    rw [if_neg hm]
    simp only [List.flatMap_cons, List.flatMap_nil, List.append_nil, if_neg hm]
    congr 1
    apply List.map_congr_left
    intro n _
    exact neutron_entry n

theorem entryList_cons (mode : String) (b : EventBatch) (bs : List EventBatch) :
    entryList mode (b :: bs) = entryList mode [b] ++ entryList mode bs := by
  unfold entryList; simp

/-! ### Updating = adding all entries -/

theorem updateAll_iff {n d : Nat} {im : Stack} (h : Shaped n d im) (hn : 0 < n) (sr : F64) (edges : List F64)
    (hl : 2 ≤ edges.length) (hd : dimOf sr = .ok d) (mode : String) (bs : List EventBatch) (im' : Stack) :
    updateAll sr edges mode im bs = .ok im' ↔
      TofDefined mode bs ∧ addEntries sr edges d im (entryList mode bs) = .ok im' := by
  have hne : edges ≠ [] := by intro h0; rw [h0] at hl; simp at hl
  induction bs generalizing im with
  | nil =>
    rw [updateAll]
    simp [TofDefined, entryList, addEntries]
  | cons b bs ih =>
    have him : im ≠ [] := by intro h0; have := h.len; rw [h0] at this; simp at this; omega
    have hu : updateImages sr edges mode im b = (entriesOf mode b).bind fun es => addEntries sr edges d im es := by
      unfold updateImages
      rw [if_neg (by push Not; exact ⟨him, hl⟩), hd]
      rfl
    rw [updateAll, hu, entryList_cons, addEntries_append]
    have htd : TofDefined mode (b :: bs) ↔ TofDefined mode [b] ∧ TofDefined mode bs := by
      unfold TofDefined
      simp only [List.mem_cons, forall_eq_or_imp, List.not_mem_nil, false_imp_iff, implies_true, and_true]
      tauto
    rw [htd]
    rcases entriesOf_eq mode b with ⟨h1, h2⟩ | ⟨h1, h2⟩
    · rw [h2]
      simp only [bind, Res.bind]
      cases ha : addEntries sr edges d im (entryList mode [b]) with
      | ok im1 =>
        simp only
        have := ih (addEntries_shaped h sr edges hne _ im1 ha)
        tauto
      | throws m => simp
      | ub u => simp
    · rw [h2]
      simp only [bind, Res.bind, reduceCtorEq, false_iff]
      tauto

/-! ### Initial images -/

theorem dimOf_side (sr : ℚ) (d : Int) (h : dimOf (.fin sr) = .ok d) (hd : 0 ≤ d) : d = side sr := by
  have h517 : F64.ofRat 517 = .fin 517 := by simpa using F64.ofRat_int (n := 517) (by norm_num)
  unfold dimOf at h
  rw [h517] at h
  simp only [F64.mul] at h
  cases hv : F64.ofRat (517 * sr) with
  | nan => rw [hv] at h; simp [F64.toI32?] at h
  | inf s => rw [hv] at h; simp [F64.toI32?] at h
  | fin v =>
    have hvr : v = rndQ (517 * sr) := by
      unfold F64.ofRat at hv
      simp only at hv
      split_ifs at hv
      injection hv with hv
      exact hv.symm
    rw [hv] at h
    simp only [F64.toI32?] at h
    split_ifs at h with hr
    injection h with h
    unfold F64.truncQ at h
    unfold side
    rw [← hvr]
    split_ifs at h with h0
    · have := Int.floor_nonneg.mpr h0
      omega
    · have h1 : ⌈v⌉ ≤ 0 := Int.ceil_le.mpr (by push_cast; linarith)
      have h2 : ⌊v⌋ < 0 := Int.floor_lt.mpr (by push_cast; linarith)
      omega

/-- What `initializeTOFImages` made, if there are two edges. -/
theorem initImages_ok (sr : F64) (edges : List F64) (hl : 2 ≤ edges.length) (im : Stack)
    (h : initImages sr edges = .ok im) :
    ∃ d : Nat, dimOf sr = .ok d ∧ zeroStack (edges.length - 1) d = .ok im := by
  unfold initImages at h
  cases hd : dimOf sr with
  | throws m => rw [hd] at h; simp [bind, Res.bind] at h
  | ub u => rw [hd] at h; simp [bind, Res.bind] at h
  | ok d =>
    rw [hd] at h
    simp only [bind, Res.bind] at h
    rw [if_neg (by intro h0; rw [h0] at hl; simp at hl)] at h
    have h' := h
    unfold zeroStack at h'
    rw [if_neg (by omega)] at h'
    split_ifs at h' with hneg
    obtain ⟨k, rfl⟩ := Int.eq_ofNat_of_zero_le (not_lt.mp hneg)
    exact ⟨k, rfl, h⟩

theorem dimOf_one : dimOf (.fin 1) = .ok 517 := by
  have h517 : F64.ofRat 517 = .fin 517 := by simpa using F64.ofRat_int (n := 517) (by norm_num)
  unfold dimOf
  rw [h517]
  simp only [F64.mul, mul_one, h517, F64.toI32?]
  have ht : F64.truncQ 517 = 517 := by simpa using truncQ_int 517
  rw [ht]
  norm_num

theorem initImages_one (edges : List F64) (h : edges ≠ []) : ∃ im, initImages (.fin 1) edges = .ok im := by
  unfold initImages
  rw [dimOf_one]
  simp only [bind, Res.bind]
  rw [if_neg h]
  unfold zeroStack
  split_ifs
  · exact ⟨_, rfl⟩
  · omega
  · exact ⟨_, rfl⟩

/-! ## C35 -/

/-- C35: after any list of batches, the value of every pixel of every image is the number of entries whose time lies
above the lower and not above the upper edge of the bin (and below the last edge) and whose position rounds to the
pixel, modulo 2^32; there are no other pixels.
Missing: the property also wants an entry exactly at the first edge counted; it is not
(`c35_false_first_edge`). -/
theorem c35_counts_partial (sr : ℚ) (qs : List ℚ) (hs : qs.Pairwise (· < ·)) (hl : 2 ≤ qs.length) (mode : String)
    (bs : List EventBatch) (im0 im : Stack) (h0 : initImages (.fin sr) (qs.map .fin) = .ok im0)
    (h : updateAll (.fin sr) (qs.map .fin) mode im0 bs = .ok im) (i y x : Nat) :
    pixel im i y x = if i + 1 < qs.length ∧ y < side sr ∧ x < side sr then
      some (counted sr qs (side sr) (entryList mode bs) i y x % 2 ^ 32) else none := by
  have hs' : qs.Pairwise (· ≤ ·) := hs.imp le_of_lt
  obtain ⟨d, hd, hz⟩ := initImages_ok _ _ (by rw [List.length_map]; exact hl) im0 h0
  have hside : d = side sr := by have := dimOf_side sr d hd (by omega); omega
  rw [List.length_map] at hz
  have hsh := zeroStack_shaped _ _ _ hz
  have := (updateAll_iff hsh (by omega) _ _ (by rw [List.length_map]; exact hl) hd mode bs im).mp h
  rw [addEntries_pixel sr qs hs' hl hsh _ im this.2, pixel_zeroStack _ _ _ hz, ← hside]
  by_cases hc : i < qs.length - 1 ∧ y < d ∧ x < d
  · rw [if_pos hc, if_pos (by omega)]; simp
  · rw [if_neg hc, if_neg (by omega)]; rfl

/-- An entry lands in at most one place. -/
theorem c35_once (sr : ℚ) (qs : List ℚ) (hs : qs.Pairwise (· < ·)) (d : Nat) (e : Entry) (i y x i' y' x' : Nat)
    (h : Lands sr qs d e i y x) (h' : Lands sr qs d e i' y' x') : i = i' ∧ y = y' ∧ x = x' :=
  h.unique (hs.imp le_of_lt) h'

/-- Between the first and the last edge, first excluded, there is always a bin. -/
theorem c35_in_some_bin (qs : List ℚ) (hne : qs ≠ []) (s : ℚ) (h1 : qs.head hne < s) (h2 : s < qs.getLast hne) :
    ∃ i, InBin qs s i := by
  induction qs with
  | nil => exact absurd rfl hne
  | cons a qs ih =>
    cases qs with
    | nil => simp at h1 h2; linarith
    | cons b qs =>
      by_cases hb : s ≤ b
      · exact ⟨0, a, b, rfl, rfl, h1, hb⟩
      · obtain ⟨i, lo, hi, g1, g2, g3⟩ := ih (by simp) (by simpa using hb) (by simpa using h2)
        exact ⟨i + 1, lo, hi, by simpa using g1, by simpa using g2, g3⟩

theorem side_one : side 1 = 517 := by
  unfold side
  have := rndQ_int (n := 517) (by norm_num)
  push_cast at this
  rw [mul_one, this]
  simp

/-- C35 for hits at super resolution 1: a hit at a detector position with a time in bin `i` lands in bin `i` at exactly
its own coordinates, and nowhere else. -/
theorem c35_hit_position (qs : List ℚ) (h : Hit) (t : U32) (s : ℚ) (ht : h.tof = some t)
    (hx : 0 ≤ h.x ∧ h.x < 517) (hy : 0 ≤ h.y ∧ h.y < 517) (hsec : F64.ofRat (25 * t.toNat / 1000000000) = .fin s)
    (hlast : ∀ last ∈ qs.getLast?, s < last) (i y x : Nat) :
    (∃ e, hitEntry h = some e ∧ Lands 1 qs (side 1) e i y x) ↔ InBin qs s i ∧ (y : Int) = h.y ∧ (x : Int) = h.x := by
  have hpix : ∀ c : Int, 0 ≤ c → c < 517 → PixelOf 1 (F64.ofInt c) c := by
    intro c h0 h1
    refine ⟨c, c, F64.ofInt_exact (by rw [abs_of_nonneg h0]; omega), ?_, ?_⟩
    · rw [mul_one]; exact F64.ofRat_int (by rw [abs_of_nonneg h0]; omega)
    · left; simp
  rw [side_one]
  constructor
  · rintro ⟨e, he, t', s', g1, -, g3, g4, -, g6, g7, -, -⟩
    rw [(hit_entry h t ht).2] at he
    injection he with he
    subst he
    simp only [F64.fin.injEq] at g1
    subst g1
    rw [hsec] at g3
    injection g3 with g3
    subst g3
    exact ⟨g4, g7.unique (hpix h.y hy.1 hy.2), g6.unique (hpix h.x hx.1 hx.2)⟩
  · rintro ⟨g1, g2, g3⟩
    refine ⟨_, (hit_entry h t ht).2, 25 * t.toNat, s, rfl, by positivity, hsec, g1, hlast, ?_, ?_, by omega, by omega⟩
    · rw [g3]; exact hpix h.x hx.1 hx.2
    · rw [g2]; exact hpix h.y hy.1 hy.2

/-- A hit at (3, 5) one second after the trigger, with edges 0, 1, 2. -/
example : ∃ e, hitEntry ⟨3, 5, 1, 2, 3, some 40000000#32, 0⟩ = some e ∧ Lands 1 [0, 1, 2] (side 1) e 0 5 3 := by
  rw [c35_hit_position [0, 1, 2] ⟨3, 5, 1, 2, 3, some 40000000#32, 0⟩ 40000000#32 1 rfl (by decide) (by decide) ?_ ?_]
  · exact ⟨⟨0, 1, rfl, rfl, by norm_num, by norm_num⟩, rfl, rfl⟩
  · have := F64.ofRat_int (n := 1) (by norm_num)
    rw [show (25 * ((40000000#32 : U32).toNat : ℚ) / 1000000000) = ((1 : ℤ) : ℚ) by norm_num, this]
    norm_num
  · simp

/-- C35 is false at the first edge: whatever the rest, an entry whose time is the first edge is not counted; with
edges from 0 these are all entries of time 0. -/
theorem c35_false_first_edge (sr : F64) (qs : List ℚ) (hs : qs.Pairwise (· < ·)) (hl : 2 ≤ qs.length) (d : Int)
    (im : Stack) (e : Entry) (t : ℚ) (ht : e.tof = .fin t) (h0 : 0 ≤ t)
    (hfirst : ∀ q ∈ qs.head?, F64.ofRat (t / 1000000000) = .fin q) :
    addEntry sr (qs.map .fin) d im e = .ok im := by
  have hne : qs ≠ [] := by intro h0; rw [h0] at hl; simp at hl
  have hq := hfirst (qs.head hne) (by rw [List.head?_eq_some_head hne]; rfl)
  have hdiv : F64.div (.fin t) (F64.ofRat 1000000000) = .fin (qs.head hne) := by
    rw [ofRat_billion]; simp only [F64.div]; rw [if_neg (by norm_num), hq]
  obtain ⟨k, hk, -⟩ := lowerBound_le (qs.map F64.fin) (.fin (qs.head hne))
  have hk0 : k = 0 := by
    by_contra hpos
    have := (lowerBound_sorted qs (hs.imp le_of_lt) _ k hk).1 0 (qs.head hne) (by omega)
      (by rw [← List.head?_eq_getElem?, List.head?_eq_some_head hne])
    exact lt_irrefl _ this
  have hp : placeEntry sr (qs.map .fin) im.length d e = .ok none := by
    unfold placeEntry
    rw [ht, hdiv, List.head?_map, List.head?_eq_some_head hne, List.getLast?_map, List.getLast?_eq_some_getLast hne]
    have hfin : (F64.fin t).isFinite = true := rfl
    have hlt : ∀ a b : ℚ, F64.lt (.fin a) (.fin b) = decide (a < b) := fun _ _ => rfl
    rw [hfin, hlt]
    simp only [Bool.not_true, Bool.or_false, decide_eq_true_eq, Option.map_some, hk, bind, Res.bind, hk0, if_true]
    rw [if_neg (not_lt.mpr h0)]
    split_ifs <;> rfl
  unfold addEntry
  rw [hp]
  rfl

example : ∀ q ∈ ([0, 1] : List ℚ).head?, F64.ofRat (0 / 1000000000) = .fin q := by
  intro q hq
  simp only [List.head?_cons, Option.mem_def, Option.some.injEq] at hq
  subst hq
  simpa using F64.ofRat_int (n := 0) (by norm_num)

/-! ## C36 -/

/-- The ways in which adding entries can fail. -/
theorem addEntries_cases {n d : Nat} {im : Stack} (h : Shaped n d im) (sr : F64) (edges : List F64) (hl : edges ≠ [])
    (es : List Entry) : (∃ im', addEntries sr edges d im es = .ok im') ∨
      (addEntries sr edges d im es = .ub .floatToInt ∧ ∃ e ∈ es, e.x.isFinite = true ∧ e.y.isFinite = true ∧
        (toPixel sr e.x = .ub .floatToInt ∨ toPixel sr e.y = .ub .floatToInt)) := by
  induction es generalizing im with
  | nil => exact .inl ⟨im, rfl⟩
  | cons e es ih =>
    rw [addEntries]
    simp only [bind]
    rcases placeEntry_cases sr edges hl n d e with ⟨h1, h2⟩ | h1
    · right
      refine ⟨?_, e, by simp, h2⟩
      have : addEntry sr edges d im e = .ub .floatToInt := by
        unfold addEntry; rw [h.len, h1]; rfl
      rw [this]; rfl
    · obtain ⟨im1, g1, g2⟩ := (addEntry_ok h sr edges hl e).1 (by
        rcases h1 with h1 | ⟨b, y, x, h1, -⟩
        · exact ⟨_, h1⟩
        · exact ⟨_, h1⟩)
      rw [g1]
      simp only [Res.bind]
      rcases ih g2 with g | ⟨g3, e', g4, g5⟩
      · exact .inl g
      · exact .inr ⟨g3, e', by simp [g4], g5⟩

/-- Outcomes of updating images of the right shape. -/
theorem updateAll_cases {n d : Nat} {im : Stack} (h : Shaped n d im) (hn : 0 < n) (sr : F64) (edges : List F64)
    (hl : 2 ≤ edges.length) (hd : dimOf sr = .ok d) (mode : String) (bs : List EventBatch) :
    (∃ im', updateAll sr edges mode im bs = .ok im') ∨
    updateAll sr edges mode im bs = .ub .indeterminate ∧ ¬ TofDefined mode bs ∨
    (updateAll sr edges mode im bs = .ub .floatToInt ∧ ∃ e ∈ entryList mode bs, e.x.isFinite = true ∧
      e.y.isFinite = true ∧ (toPixel sr e.x = .ub .floatToInt ∨ toPixel sr e.y = .ub .floatToInt)) := by
  have hne : edges ≠ [] := by intro h0; rw [h0] at hl; simp at hl
  induction bs generalizing im with
  | nil => exact .inl ⟨im, rfl⟩
  | cons b bs ih =>
    have him : im ≠ [] := by intro h0; have := h.len; rw [h0] at this; simp at this; omega
    have hu : updateImages sr edges mode im b = (entriesOf mode b).bind fun es => addEntries sr edges d im es := by
      unfold updateImages
      rw [if_neg (by push Not; exact ⟨him, hl⟩), hd]
      rfl
    rw [updateAll, hu]
    rcases entriesOf_eq mode b with ⟨h1, h2⟩ | ⟨h1, h2⟩
    · rw [h2]
      simp only [bind, Res.bind]
      rcases addEntries_cases h sr edges hne (entryList mode [b]) with ⟨im1, g⟩ | ⟨g, e, he, g'⟩
      · rw [g]
        simp only
        rcases ih (addEntries_shaped h sr edges hne _ im1 g) with i | ⟨i, i'⟩ | ⟨i, e, he, i'⟩
        · exact .inl i
        · refine .inr (.inl ⟨i, fun hh => i' fun hm b' hb' => hh hm b' (by simp [hb'])⟩)
        · exact .inr (.inr ⟨i, e, by rw [entryList_cons]; simp [he], i'⟩)
      · rw [g]
        exact .inr (.inr ⟨rfl, e, by rw [entryList_cons]; simp [he], g'⟩)
    · rw [h2]
      refine .inr (.inl ⟨rfl, fun hh => h1 fun hm b' hb' => hh hm b' ?_⟩)
      rw [List.mem_singleton] at hb'
      simp [hb']

/-- The outcome is a value or undefined behaviour other than a memory access outside the images and edges. -/
def InBounds {α : Type} (r : Res α) : Prop := r ≠ .ub .oobWrite ∧ r ≠ .ub .oobRead

/-- C36: with images made for the same super resolution and edges, `updateTOFImages` never accesses anything outside
the images or edges, for all super resolutions, edges (sorted or not, NaN included), modes and batches. -/
theorem c36_update_in_bounds (sr : F64) (edges : List F64) (mode : String) (bs : List EventBatch) (im0 : Stack)
    (h0 : initImages sr edges = .ok im0) : InBounds (updateAll sr edges mode im0 bs) := by
  by_cases hl : 2 ≤ edges.length
  · obtain ⟨d, hd, hz⟩ := initImages_ok sr edges hl im0 h0
    rcases updateAll_cases (zeroStack_shaped _ _ _ hz) (by omega) sr edges hl hd mode bs with ⟨_, h⟩ | ⟨h, -⟩ | ⟨h, -⟩ <;>
      rw [h] <;> exact ⟨by simp, by simp⟩
  · have : ∀ (bs : List EventBatch) im, updateAll sr edges mode im bs = .ok im := by
      intro bs
      induction bs with
      | nil => intro im; rfl
      | cons b bs ih =>
        intro im
        rw [updateAll]
        unfold updateImages
        rw [if_pos (.inr (by omega))]
        exact ih im
    rw [this]
    exact ⟨by simp, by simp⟩

/-- The loop of `timedCreateTOFImages` does the same as repeated updates. -/
theorem createLoop_eq {n d : Nat} {im : Stack} (h : Shaped n d im) (hn : 0 < n) (sr : F64) (edges : List F64)
    (hl : 2 ≤ edges.length) (hd : dimOf sr = .ok d) (mode : String) (bs : List EventBatch) :
    createLoop sr edges mode d im bs = updateAll sr edges mode im bs := by
  have hne : edges ≠ [] := by intro h0; rw [h0] at hl; simp at hl
  induction bs generalizing im with
  | nil => rfl
  | cons b bs ih =>
    have him : im ≠ [] := by intro h0; have := h.len; rw [h0] at this; simp at this; omega
    rw [createLoop, updateAll]
    unfold updateImages
    rw [if_neg (by push Not; exact ⟨him, hl⟩), hd]
    simp only [bind, Res.bind]
    cases entriesOf mode b with
    | throws m => rfl
    | ub u => rfl
    | ok es =>
      simp only
      cases ha : addEntries sr edges d im es with
      | throws m => rfl
      | ub u => rfl
      | ok im1 => exact ih (addEntries_shaped h sr edges hne _ im1 ha)

/-! ## C38 -/

/-- C38: for at least one batch and two edges, `timedCreateTOFImages` is `initializeTOFImages` followed by
`updateTOFImages` on each batch, in every respect (value, exception, undefined behaviour).
Missing: the empty list of batches, for which it is false (`c38_false_empty`). -/
theorem c38_agree_partial (sr : F64) (edges : List F64) (hl : 2 ≤ edges.length) (mode : String) (bs : List EventBatch)
    (hb : bs ≠ []) :
    createImages sr edges mode bs = (initImages sr edges).bind fun im => updateAll sr edges mode im bs := by
  have hne : edges ≠ [] := by intro h0; rw [h0] at hl; simp at hl
  unfold createImages initImages
  rw [if_neg hne, if_neg (by omega), if_neg hb]
  simp only [bind]
  cases hd : dimOf sr with
  | throws m => rfl
  | ub u => rfl
  | ok d =>
    simp only [Res.bind]
    rw [if_neg hne]
    cases hz : zeroStack (edges.length - 1) d with
    | throws m => rfl
    | ub u => rfl
    | ok im =>
      simp only
      have hpos : 0 ≤ d := by
        unfold zeroStack at hz
        rw [if_neg (by omega)] at hz
        split_ifs at hz with hneg
        omega
      obtain ⟨k, rfl⟩ := Int.eq_ofNat_of_zero_le hpos
      exact createLoop_eq (zeroStack_shaped _ _ _ hz) (by omega) sr edges hl hd mode bs

example : ([⟨⟨0, 0, 0, [], ⟨0, 0, 0⟩⟩, []⟩] : List EventBatch) ≠ [] := by simp

/-- C38 is false without batches: for every edges (two or more) and mode, and super resolution 1, the one-shot images
have no rows at all while the initial images have 517. -/
theorem c38_false_empty (edges : List F64) (hl : 2 ≤ edges.length) (mode : String) :
    createImages (.fin 1) edges mode [] = .ok (List.replicate (edges.length - 1) []) ∧
    (initImages (.fin 1) edges).bind (fun im => updateAll (.fin 1) edges mode im []) =
      .ok (List.replicate (edges.length - 1) (List.replicate 517 (List.replicate 517 0#32))) ∧
    createImages (.fin 1) edges mode [] ≠
      (initImages (.fin 1) edges).bind (fun im => updateAll (.fin 1) edges mode im []) := by
  have hne : edges ≠ [] := by intro h0; rw [h0] at hl; simp at hl
  have hd := dimOf_one
  have h1 : createImages (.fin 1) edges mode [] = .ok (List.replicate (edges.length - 1) []) := by
    unfold createImages
    rw [if_neg hne, if_neg (by omega), if_pos rfl]
  have h2 : (initImages (.fin 1) edges).bind (fun im => updateAll (.fin 1) edges mode im []) =
      .ok (List.replicate (edges.length - 1) (List.replicate 517 (List.replicate 517 0#32))) := by
    unfold initImages
    rw [hd]
    simp only [bind, Res.bind]
    rw [if_neg hne]
    unfold zeroStack
    rw [if_neg (by omega), if_neg (by omega)]
    rfl
  refine ⟨h1, h2, ?_⟩
  rw [h1, h2]
  intro h
  injection h with h
  have h3 : edges.length - 1 = edges.length - 2 + 1 := by omega
  rw [h3, List.replicate_succ, List.replicate_succ] at h
  injection h with h _
  have := congrArg List.length h
  rw [List.length_replicate] at this
  simp only [List.length_nil] at this
  omega

/-- C36 for `timedCreateTOFImages`. -/
theorem c36_create_in_bounds (sr : F64) (edges : List F64) (mode : String) (bs : List EventBatch) :
    InBounds (createImages sr edges mode bs) := by
  by_cases h0 : edges = []
  · unfold createImages; rw [if_pos h0]; exact ⟨by simp, by simp⟩
  · by_cases hl : edges.length < 2
    · unfold createImages; rw [if_neg h0, if_pos hl]; exact ⟨by simp, by simp⟩
    · by_cases hb : bs = []
      · unfold createImages; rw [if_neg h0, if_neg hl, if_pos hb]; exact ⟨by simp, by simp⟩
      · rw [c38_agree_partial sr edges (by omega) mode bs hb]
        cases hi : initImages sr edges with
        | ok im0 => exact c36_update_in_bounds sr edges mode bs im0 hi
        | throws m => exact ⟨by simp [Res.bind], by simp [Res.bind]⟩
        | ub u =>
          unfold initImages at hi
          cases hd : dimOf sr with
          | throws m => rw [hd] at hi; simp [bind, Res.bind] at hi
          | ub u' =>
            have : u' = .floatToInt := by
              unfold dimOf at hd
              split at hd <;> simp at hd
              exact hd.symm
            rw [hd, this] at hi
            simp only [bind, Res.bind, Res.ub.injEq] at hi
            rw [← hi]
            exact ⟨by simp [Res.bind], by simp [Res.bind]⟩
          | ok d =>
            rw [hd] at hi
            simp only [bind, Res.bind] at hi
            rw [if_neg h0] at hi
            unfold zeroStack at hi
            split_ifs at hi

/-- A coordinate on the detector and a moderate super resolution convert. -/
theorem toPixel_moderate (sr : ℚ) (h0 : 0 ≤ sr) (h1 : sr ≤ 2 ^ 20) (c : Int) (hc : 0 ≤ c ∧ c < 1024) :
    ∃ k, toPixel (.fin sr) (F64.ofInt c) = .ok k := by
  have hcq : (0 : ℚ) ≤ c ∧ (c : ℚ) ≤ 1024 := ⟨by exact_mod_cast hc.1, by exact_mod_cast hc.2.le⟩
  have hp0 : 0 ≤ (c : ℚ) * sr := mul_nonneg hcq.1 h0
  have hp1 : (c : ℚ) * sr ≤ ((2 ^ 30 : ℤ) : ℚ) := by
    calc (c : ℚ) * sr ≤ 1024 * 2 ^ 20 := mul_le_mul hcq.2 h1 h0 (by norm_num)
      _ = ((2 ^ 30 : ℤ) : ℚ) := by norm_num
  have hr1 : rndQ ((c : ℚ) * sr) ≤ ((2 ^ 30 : ℤ) : ℚ) := by
    have := rndQ_mono hp1
    rwa [rndQ_int (by norm_num)] at this
  have hr0 := rndQ_nonneg hp0
  have hv : F64.ofRat ((c : ℚ) * sr) = .fin (rndQ ((c : ℚ) * sr)) := by
    apply F64.ofRat_eq_fin
    rw [abs_of_nonneg hr0]
    refine lt_of_le_of_lt hr1 ?_
    calc (((2 ^ 30 : ℤ)) : ℚ) = 2 ^ (30 : ℤ) := by norm_num
      _ < 2 ^ (1024 : ℤ) := zpow_lt_zpow_right₀ (by norm_num) (by norm_num)
  unfold toPixel
  rw [F64.ofInt_exact (by rw [abs_of_nonneg hc.1]; omega)]
  simp only [F64.mul]
  rw [hv]
  simp only [F64.round, F64.toI32?, truncQ_int]
  rw [if_pos hr0]
  have b0 : 0 ≤ ⌊rndQ ((c : ℚ) * sr) + 1 / 2⌋ := Int.floor_nonneg.mpr (by linarith)
  have b1 : ⌊rndQ ((c : ℚ) * sr) + 1 / 2⌋ < 2 ^ 30 + 1 := by
    rw [Int.floor_lt]
    push_cast at hr1 ⊢
    linarith
  rw [if_pos (by omega)]
  exact ⟨_, rfl⟩

/-- C36, no undefined behaviour at all for decoded hits: positions on the detector, a time of flight, and a super
resolution up to 2^20. -/
theorem c36_hits_defined (sr : ℚ) (h0 : 0 ≤ sr) (h1 : sr ≤ 2 ^ 20) (edges : List F64) (hl : 2 ≤ edges.length)
    (bs : List EventBatch) (im0 : Stack) (hi : initImages (.fin sr) edges = .ok im0)
    (hh : ∀ b ∈ bs, ∀ h ∈ b.batch.hits, (0 ≤ h.x ∧ h.x < 1024) ∧ (0 ≤ h.y ∧ h.y < 1024) ∧ h.tof ≠ none) :
    ∃ im, updateAll (.fin sr) edges "hit" im0 bs = .ok im := by
  obtain ⟨d, hd, hz⟩ := initImages_ok _ edges hl im0 hi
  rcases updateAll_cases (zeroStack_shaped _ _ _ hz) (by omega) _ edges hl hd "hit" bs with h | ⟨h, g⟩ | ⟨h, e, he, -, -, g⟩
  · exact h
  · exact absurd (fun _ b hb h hm => (hh b hb h hm).2.2) g
  · exfalso
    unfold entryList at he
    obtain ⟨b, hb, he⟩ := List.mem_flatMap.mp he
    rw [if_pos rfl] at he
    obtain ⟨h', hm, he⟩ := List.mem_filterMap.mp he
    obtain ⟨gx, gy, gt⟩ := hh b hb h' hm
    obtain ⟨t, ht⟩ := Option.ne_none_iff_exists'.mp gt
    rw [(hit_entry h' t ht).2] at he
    injection he with he
    subst he
    obtain ⟨kx, ex⟩ := toPixel_moderate sr h0 h1 h'.x gx
    obtain ⟨ky, ey⟩ := toPixel_moderate sr h0 h1 h'.y gy
    simp only [ex, ey, reduceCtorEq, or_self] at g

/-- The assumptions of C35, C36 and C37 are met by a batch with one hit. -/
example : ∃ im0 im, initImages (.fin 1) (([0, 1] : List ℚ).map .fin) = .ok im0 ∧
    updateAll (.fin 1) (([0, 1] : List ℚ).map .fin) "hit" im0
      [⟨⟨0, 0, 0, [⟨1, 2, 3, 4, 5, some 6, 7⟩], ⟨0, 0, 0⟩⟩, []⟩] = .ok im ∧ ([0, 1] : List ℚ).Pairwise (· < ·) := by
  obtain ⟨im0, h0⟩ := initImages_one (([0, 1] : List ℚ).map .fin) (by simp)
  obtain ⟨im, h⟩ := c36_hits_defined 1 (by norm_num) (by norm_num) (([0, 1] : List ℚ).map .fin) (by simp)
    [⟨⟨0, 0, 0, [⟨1, 2, 3, 4, 5, some 6, 7⟩], ⟨0, 0, 0⟩⟩, []⟩] im0 h0 (by
      intro b hb h hh
      rw [List.mem_singleton] at hb; subst hb
      rw [List.mem_singleton] at hh; subst hh
      decide)
  exact ⟨im0, im, h0, h, by simp⟩

/-- Undefined behaviour that remains: a finite coordinate whose multiple by the super resolution is beyond `int`. -/
theorem c36_overflow (sr a : ℚ) (v : ℚ) (hv : F64.ofRat (a * sr) = .fin v) (h : 2 ^ 31 ≤ v) :
    toPixel (.fin sr) (.fin a) = .ub .floatToInt := by
  unfold toPixel
  simp only [F64.mul]
  rw [hv]
  have h0 : 0 ≤ v := le_trans (by norm_num) h
  simp only [F64.round, F64.toI32?, truncQ_int]
  rw [if_pos h0]
  have : 2 ^ 31 ≤ ⌊v + 1 / 2⌋ := by
    rw [Int.le_floor]; push_cast; linarith
  rw [if_neg (by omega)]

example : ∃ v, F64.ofRat (2 ^ 31 * 1) = .fin v ∧ (2 : ℚ) ^ 31 ≤ v := by
  refine ⟨((2 ^ 31 : ℤ) : ℚ), ?_, by norm_num⟩
  have := F64.ofRat_int (n := 2 ^ 31) (by norm_num)
  rw [mul_one, ← this]
  norm_num

/-! ## C37 -/

theorem TofDefined.perm {mode : String} {bs bs' : List EventBatch}
    (h : mode = "hit" → (bs.flatMap fun b => b.batch.hits).Perm (bs'.flatMap fun b => b.batch.hits))
    (hd : TofDefined mode bs) : TofDefined mode bs' := by
  intro hm b hb h' hh'
  have := (h hm).symm.subset (List.mem_flatMap.mpr ⟨b, hb, hh'⟩)
  obtain ⟨b0, hb0, hh0⟩ := List.mem_flatMap.mp this
  exact hd hm b0 hb0 h' hh0

theorem entryList_hits (bs : List EventBatch) :
    entryList "hit" bs = (bs.flatMap fun b => b.batch.hits).filterMap hitEntry := by
  unfold entryList
  rw [List.filterMap_flatMap]
  simp

theorem entryList_neutrons (mode : String) (hm : mode ≠ "hit") (bs : List EventBatch) :
    entryList mode bs = (bs.flatMap fun b => b.neutrons).map fun n => ⟨n.x, n.y, F64.mul n.tof (.fin 25)⟩ := by
  unfold entryList
  rw [List.map_flatMap]
  simp [hm]

/-- The hits or neutrons that a mode looks at are the same, in any order and any grouping. -/
def SameData (mode : String) (bs bs' : List EventBatch) : Prop :=
  if mode = "hit" then (bs.flatMap fun b => b.batch.hits).Perm (bs'.flatMap fun b => b.batch.hits)
  else (bs.flatMap fun b => b.neutrons).Perm (bs'.flatMap fun b => b.neutrons)

theorem entryList_perm {mode : String} {bs bs' : List EventBatch} (h : SameData mode bs bs') :
    (entryList mode bs).Perm (entryList mode bs') := by
  unfold SameData at h
  by_cases hm : mode = "hit"
  · rw [if_pos hm] at h
    subst hm
    rw [entryList_hits, entryList_hits]
    exact h.filterMap _
  · rw [if_neg hm] at h
    rw [entryList_neutrons _ hm, entryList_neutrons _ hm]
    exact h.map _

/-- C37: the images depend only on which hits (neutrons) there are: any reordering of them, within and between
batches, and any other splitting into batches give the same images. -/
theorem c37_order_and_batching (sr : ℚ) (qs : List ℚ) (hs : qs.Pairwise (· < ·)) (hl : 2 ≤ qs.length) (mode : String)
    (bs bs' : List EventBatch) (hsame : SameData mode bs bs') (im0 im : Stack)
    (h0 : initImages (.fin sr) (qs.map .fin) = .ok im0)
    (h : updateAll (.fin sr) (qs.map .fin) mode im0 bs = .ok im) :
    updateAll (.fin sr) (qs.map .fin) mode im0 bs' = .ok im := by
  have hs' : qs.Pairwise (· ≤ ·) := hs.imp le_of_lt
  have hl' : 2 ≤ (qs.map F64.fin).length := by rw [List.length_map]; exact hl
  have hne : qs.map F64.fin ≠ [] := by intro h0; rw [h0] at hl'; simp at hl'
  obtain ⟨d, hd, hz⟩ := initImages_ok _ _ hl' im0 h0
  rw [List.length_map] at hz
  have hsh := zeroStack_shaped _ _ _ hz
  obtain ⟨g1, g2⟩ := (updateAll_iff hsh (by omega) _ _ hl' hd mode bs im).mp h
  have hp := entryList_perm hsame
  have g1' : TofDefined mode bs' := TofDefined.perm (fun hm => by
    unfold SameData at hsame; rwa [if_pos hm] at hsame) g1
  obtain ⟨im', g2'⟩ := (addEntries_isOk hsh _ _ hne (entryList mode bs')).mpr (fun e he =>
    (addEntries_isOk hsh _ _ hne (entryList mode bs)).mp ⟨im, g2⟩ e (hp.symm.subset he))
  have heq : im' = im := by
    apply stack_ext (addEntries_shaped hsh _ _ hne _ _ g2') (addEntries_shaped hsh _ _ hne _ _ g2)
    intro i y x
    rw [addEntries_pixel sr qs hs' hl hsh _ im g2, addEntries_pixel sr qs hs' hl hsh _ im' g2']
    unfold counted
    rw [hp.countP_eq]
  rw [heq] at g2'
  exact (updateAll_iff hsh (by omega) _ _ hl' hd mode bs' im).mpr ⟨g1', g2'⟩

example : SameData "hit" [⟨⟨0, 0, 0, [⟨1, 2, 3, 4, 5, some 6, 7⟩, ⟨8, 2, 3, 4, 5, some 6, 7⟩], ⟨0, 0, 0⟩⟩, []⟩]
    [⟨⟨0, 0, 0, [⟨8, 2, 3, 4, 5, some 6, 7⟩], ⟨0, 0, 0⟩⟩, []⟩, ⟨⟨1, 0, 2, [⟨1, 2, 3, 4, 5, some 6, 7⟩], ⟨0, 0, 0⟩⟩, []⟩] := by
  unfold SameData
  rw [if_pos rfl]
  exact List.Perm.swap _ _ _

/-! Totals -/

/-- Sum of all counts of an image. -/
def imageSum (img : List (List U32)) : Nat := (img.map fun row => (row.map BitVec.toNat).sum).sum

theorem spectral_row (row : List U32) (s : U64) :
    (row.foldl (fun s v => s + v.setWidth 64) s).toNat = (s.toNat + (row.map BitVec.toNat).sum) % 2 ^ 64 := by
  induction row generalizing s with
  | nil => simp only [List.foldl_nil, List.map_nil, List.sum_nil]; have := s.isLt; omega
  | cons v row ih =>
    rw [List.foldl_cons, ih, List.map_cons, List.sum_cons, BitVec.toNat_add, BitVec.toNat_setWidth]
    have := v.isLt
    rw [Nat.mod_eq_of_lt (a := v.toNat) (by omega)]
    omega

theorem spectral_image (img : List (List U32)) (s : U64) :
    (img.foldl (fun s row => s + row.foldl (fun s v => s + v.setWidth 64) 0#64) s).toNat =
      (s.toNat + imageSum img) % 2 ^ 64 := by
  unfold imageSum
  induction img generalizing s with
  | nil => simp only [List.foldl_nil, List.map_nil, List.sum_nil]; have := s.isLt; omega
  | cons row img ih =>
    rw [List.foldl_cons, ih, List.map_cons, List.sum_cons, BitVec.toNat_add, spectral_row]
    simp only [BitVec.toNat_ofNat]
    omega

theorem sum_set (l : List Nat) (k v : Nat) (hk : k < l.length) : (l.set k v).sum + l[k] = l.sum + v := by
  induction l generalizing k with
  | nil => simp at hk
  | cons a l ih =>
    cases k with
    | zero => simp; omega
    | succ k =>
      have := ih k (by simpa using hk)
      simp only [List.set_cons_succ, List.sum_cons, List.getElem_cons_succ]
      omega

/-- A count that does not wrap adds one to the sum of its image and nothing to others. -/
theorem bump_sum (im im' : Stack) (b y x v : Nat) (h : bump im b y x = .ok im') (hv : pixel im b y x = some v)
    (hlt : v + 1 < 2 ^ 32) (i : Nat) :
    (im'[i]?.map imageSum) = im[i]?.map fun img => imageSum img + if i = b then 1 else 0 := by
  unfold bump at h
  cases h1 : im[b]? with
  | none => rw [h1] at h; simp at h
  | some img =>
    rw [h1] at h
    simp only at h
    cases h2 : img[y]? with
    | none => rw [h2] at h; simp at h
    | some row =>
      rw [h2] at h
      simp only at h
      cases h3 : row[x]? with
      | none => rw [h3] at h; simp at h
      | some w =>
        rw [h3] at h
        simp only [Res.ok.injEq] at h
        subst h
        obtain ⟨a', -⟩ := List.getElem?_eq_some_iff.mp h1
        obtain ⟨b', e2⟩ := List.getElem?_eq_some_iff.mp h2
        obtain ⟨c', e3⟩ := List.getElem?_eq_some_iff.mp h3
        have hw : w.toNat = v := by
          unfold pixel at hv
          rw [h1] at hv
          simp only [Option.bind_some] at hv
          rw [h2] at hv
          simp only [Option.bind_some] at hv
          rw [h3] at hv
          simpa using hv
        have hw1 : (w + 1).toNat = v + 1 := by
          rw [BitVec.toNat_add, hw]; exact Nat.mod_eq_of_lt hlt
        by_cases hi : b = i
        · subst hi
          rw [List.getElem?_set_self a', h1]
          simp only [Option.map_some, if_true, Option.some.injEq]
          unfold imageSum
          rw [List.map_set]
          have s1 := sum_set (img.map fun row => (row.map BitVec.toNat).sum) y
            (((row.set x (w + 1)).map BitVec.toNat).sum) (by simpa using b')
          have s2 := sum_set (row.map BitVec.toNat) x (v + 1) (by simpa using c')
          rw [List.getElem_map, e2] at s1
          rw [List.getElem_map, e3, hw] at s2
          rw [List.map_set, hw1] at s1 ⊢
          omega
        · rw [List.getElem?_set_ne hi, if_neg (fun e => hi e.symm)]
          simp

theorem counted_le (sr : ℚ) (qs : List ℚ) (d : Nat) (es : List Entry) (i y x : Nat) :
    counted sr qs d es i y x ≤ es.length := List.countP_le_length

open Classical in
/-- Adding entries adds to each image sum the number of entries that land in the bin, as long as no count wraps. -/
theorem addEntries_sum (sr : ℚ) (qs : List ℚ) (hs : qs.Pairwise (· ≤ ·)) (hl : 2 ≤ qs.length) {d : Nat} {im : Stack}
    (h : Shaped (qs.length - 1) d im) (es : List Entry) (im' : Stack) (k : Nat)
    (hk : ∀ i y x v, pixel im i y x = some v → v ≤ k) (hlt : k + es.length < 2 ^ 32)
    (hr : addEntries (.fin sr) (qs.map .fin) d im es = .ok im') (i : Nat) :
    im'[i]?.map imageSum = im[i]?.map fun img => imageSum img + countedIn sr qs d es i := by
  have hne : qs.map F64.fin ≠ [] := by
    intro h0
    have := congrArg List.length h0
    rw [List.length_map] at this
    simp at this; rw [this] at hl; simp at hl
  induction es generalizing im k with
  | nil =>
    rw [addEntries] at hr; injection hr with hr; subst hr
    simp [countedIn]
  | cons e es ih =>
    rw [addEntries] at hr
    simp only [bind] at hr
    rw [List.length_cons] at hlt
    cases ha : addEntry (.fin sr) (qs.map .fin) d im e with
    | throws m => rw [ha] at hr; simp [Res.bind] at hr
    | ub u => rw [ha] at hr; simp [Res.bind] at hr
    | ok im1 =>
      rw [ha] at hr
      obtain ⟨g1, r, g2, g3⟩ := (addEntry_ok h _ _ hne e).2 im1 ha
      have hk1 : ∀ i y x v, pixel im1 i y x = some v → v ≤ k + 1 := by
        intro i y x v hv
        rw [g3] at hv
        split_ifs at hv
        · obtain ⟨u, hu, rfl⟩ := Option.map_eq_some_iff.mp hv
          have := hk _ _ _ _ hu
          have := Nat.mod_le (u + 1) (2 ^ 32)
          omega
        · have := hk _ _ _ _ hv
          omega
      have hL := placeEntry_ok sr qs hs hl d e r g2
      have hstep : im1[i]?.map imageSum = im[i]?.map fun img =>
          imageSum img + if ∃ y x, r = some (i, y, x) then 1 else 0 := by
        unfold addEntry at ha
        rw [h.len, g2] at ha
        simp only [bind, Res.bind] at ha
        cases r with
        | none => simp only [Res.ok.injEq] at ha; subst ha; simp
        | some p =>
          obtain ⟨b, y, x⟩ := p
          simp only at ha
          have hsome : ∃ v, pixel im b y x = some v := by
            unfold bump at ha
            cases e1 : im[b]? with
            | none => rw [e1] at ha; simp at ha
            | some img =>
              rw [e1] at ha; simp only at ha
              cases e2 : img[y]? with
              | none => rw [e2] at ha; simp at ha
              | some row =>
                rw [e2] at ha; simp only at ha
                cases e3 : row[x]? with
                | none => rw [e3] at ha; simp at ha
                | some w =>
                  refine ⟨w.toNat, ?_⟩
                  unfold pixel
                  rw [e1]; simp only [Option.bind_some]
                  rw [e2]; simp only [Option.bind_some]
                  rw [e3]; rfl
          obtain ⟨v, hv⟩ := hsome
          have := hk _ _ _ _ hv
          rw [bump_sum im im1 b y x v ha hv (by omega) i]
          congr 1
          funext img
          simp only [Option.some.injEq, Prod.mk.injEq]
          by_cases hi : i = b
          · rw [if_pos hi, if_pos ⟨y, x, hi.symm, rfl, rfl⟩]
          · rw [if_neg hi, if_neg]
            rintro ⟨_, _, e, _⟩
            exact hi e.symm
      rw [ih g1 (k + 1) hk1 (by omega) hr]
      have hcount : countedIn sr qs d (e :: es) i =
          countedIn sr qs d es i + if ∃ y x, r = some (i, y, x) then 1 else 0 := by
        unfold countedIn
        rw [List.countP_cons]
        congr 1
        simp only [decide_eq_true_eq, hL]
      rw [hcount]
      cases h1 : im1[i]? with
      | none =>
        cases h2 : im[i]? with
        | none => rfl
        | some img => rw [h1, h2] at hstep; simp at hstep
      | some img1 =>
        cases h2 : im[i]? with
        | none => rw [h1, h2] at hstep; simp at hstep
        | some img =>
          rw [h1, h2] at hstep
          simp only [Option.map_some, Option.some.injEq] at hstep ⊢
          omega

/-- C37, totals: as long as there are fewer than 2^32 entries, the spectrum of the images counts for every bin the
entries that land in it. -/
theorem c37_total (sr : ℚ) (qs : List ℚ) (hs : qs.Pairwise (· < ·)) (hl : 2 ≤ qs.length) (mode : String)
    (bs : List EventBatch) (hlt : (entryList mode bs).length < 2 ^ 32) (im0 im : Stack)
    (h0 : initImages (.fin sr) (qs.map .fin) = .ok im0)
    (h : updateAll (.fin sr) (qs.map .fin) mode im0 bs = .ok im) :
    (spectralCounts im).length = qs.length - 1 ∧
    ∀ i c, (spectralCounts im)[i]? = some c → c.toNat = countedIn sr qs (side sr) (entryList mode bs) i := by
  have hs' : qs.Pairwise (· ≤ ·) := hs.imp le_of_lt
  obtain ⟨d, hd, hz⟩ := initImages_ok _ _ (by rw [List.length_map]; exact hl) im0 h0
  have hside : d = side sr := by have := dimOf_side sr d hd (by omega); omega
  rw [List.length_map] at hz
  have hsh := zeroStack_shaped _ _ _ hz
  have hne : qs.map F64.fin ≠ [] := by
    intro h0
    have := congrArg List.length h0
    rw [List.length_map, List.length_nil] at this
    omega
  obtain ⟨-, g⟩ := (updateAll_iff hsh (by omega) _ _ (by rw [List.length_map]; exact hl) hd mode bs im).mp h
  have hsh' := addEntries_shaped hsh _ _ hne _ _ g
  have hlen : (spectralCounts im).length = qs.length - 1 := by
    unfold spectralCounts; rw [List.length_map, hsh'.len]
  refine ⟨hlen, ?_⟩
  intro i c hc
  have hsum := addEntries_sum sr qs hs' hl hsh _ im 0 (by
    intro i y x v hv
    rw [pixel_zeroStack _ _ _ hz] at hv
    split_ifs at hv
    injection hv with hv
    omega) (by omega) g i
  unfold spectralCounts at hc
  rw [List.getElem?_map] at hc
  obtain ⟨img, hi, rfl⟩ := Option.map_eq_some_iff.mp hc
  obtain ⟨hi', -⟩ := List.getElem?_eq_some_iff.mp hi
  have hi0 : i < im0.length := by rw [hsh.len, ← hsh'.len]; exact hi'
  rw [hi, List.getElem?_eq_getElem hi0] at hsum
  simp only [Option.map_some, Option.some.injEq] at hsum
  have hzero : imageSum im0[i] = 0 := by
    have hm := List.getElem_mem hi0
    unfold zeroStack at hz
    split_ifs at hz
    · injection hz with hz; rw [← hz] at hi0; simp at hi0
    · injection hz with hz
      have : ∀ x ∈ im0, x = List.replicate (d : Int).toNat (List.replicate (d : Int).toNat 0#32) := by
        rw [← hz]; intro x hx; exact (List.mem_replicate.mp hx).2
      rw [this _ hm]
      unfold imageSum
      simp
  rw [spectral_image]
  have hle : countedIn sr qs d (entryList mode bs) i ≤ (entryList mode bs).length := List.countP_le_length
  rw [hsum, hzero, ← hside]
  simp only [BitVec.toNat_ofNat]
  omega

theorem sum_indicator (n j : Nat) (h : j < n) : ((List.range n).map fun i => if i = j then 1 else 0).sum = 1 := by
  induction n with
  | zero => omega
  | succ n ih =>
    rw [List.range_succ, List.map_append, List.sum_append]
    rcases Nat.lt_or_ge j n with h1 | h1
    · rw [ih h1]; simp; omega
    · have : j = n := by omega
      subst this
      rw [List.map_congr_left (g := fun _ => 0) (fun i hi => if_neg (by have := List.mem_range.mp hi; omega))]
      simp

open Classical in
/-- C37: the total of all counts is the number of entries that land anywhere. -/
theorem c37_grand_total (sr : ℚ) (qs : List ℚ) (hs : qs.Pairwise (· < ·)) (hl : 2 ≤ qs.length) (mode : String)
    (bs : List EventBatch) (hlt : (entryList mode bs).length < 2 ^ 32) (im0 im : Stack)
    (h0 : initImages (.fin sr) (qs.map .fin) = .ok im0)
    (h : updateAll (.fin sr) (qs.map .fin) mode im0 bs = .ok im) :
    ((spectralCounts im).map BitVec.toNat).sum =
      (entryList mode bs).countP fun e => ∃ i y x, Lands sr qs (side sr) e i y x := by
  obtain ⟨hlen, hc⟩ := c37_total sr qs hs hl mode bs hlt im0 im h0 h
  have heq : (spectralCounts im).map BitVec.toNat =
      (List.range (qs.length - 1)).map (countedIn sr qs (side sr) (entryList mode bs)) := by
    apply List.ext_getElem (by simp [hlen])
    intro i h1 h2
    rw [List.getElem_map, List.getElem_map, List.getElem_range]
    rw [List.length_map] at h1
    exact hc i _ (List.getElem?_eq_getElem h1)
  rw [heq]
  generalize entryList mode bs = es
  induction es with
  | nil =>
    rw [show countedIn sr qs (side sr) [] = fun _ => 0 from funext fun _ => rfl]; simp
  | cons e es ih =>
    rw [List.countP_cons, ← ih]
    have hcons : ∀ i, countedIn sr qs (side sr) (e :: es) i = countedIn sr qs (side sr) es i +
        if ∃ y x, Lands sr qs (side sr) e i y x then 1 else 0 := by
      intro i
      unfold countedIn
      rw [List.countP_cons]
      simp only [decide_eq_true_eq]
    rw [List.map_congr_left (fun i _ => hcons i), List.sum_map_add]
    congr 1
    by_cases hex : ∃ i y x, Lands sr qs (side sr) e i y x
    · rw [if_pos (by simpa using hex)]
      obtain ⟨j, y, x, hj⟩ := hex
      have hj' : j < qs.length - 1 := by
        obtain ⟨t, s, -, -, -, ⟨lo, hi, -, g, -⟩, -⟩ := hj
        obtain ⟨g', -⟩ := List.getElem?_eq_some_iff.mp g
        omega
      have hone : ∀ i, (if ∃ y x, Lands sr qs (side sr) e i y x then 1 else 0) = if i = j then 1 else 0 := by
        intro i
        by_cases hij : i = j
        · rw [if_pos hij, if_pos ⟨y, x, hij ▸ hj⟩]
        · rw [if_neg hij, if_neg]
          rintro ⟨y', x', hh⟩
          exact hij (c35_once sr qs hs _ e _ _ _ _ _ _ hh hj).1
      rw [List.map_congr_left (fun i _ => hone i)]
      exact sum_indicator _ _ hj'
    · rw [if_neg (by simpa using hex)]
      rw [List.map_congr_left (g := fun _ => 0) (fun i _ => if_neg fun hh => hex ⟨i, hh⟩)]
      simp

end Verif.Props
