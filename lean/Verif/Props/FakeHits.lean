import Verif.Spec.FakeHits
import Verif.Props.LegacyAbs
import Mathlib.Data.List.Range

/-!
# C95: the clustering benchmarks
-/

namespace Verif.Props

open Verif Verif.Spec

/-! ## Generation -/

theorem trunc_between {A B : ℤ} {q : ℚ} (h1 : (A : ℚ) ≤ q) (h2 : q ≤ B) : A ≤ F64.truncQ q ∧ F64.truncQ q ≤ B := by
  unfold F64.truncQ
  split_ifs with h
  · refine ⟨Int.le_floor.mpr h1, ?_⟩
    have := (Int.floor_le q).trans h2
    exact_mod_cast this
  · refine ⟨?_, Int.ceil_le.mpr h2⟩
    have := h1.trans (Int.le_ceil q)
    exact_mod_cast this

theorem small_ofRat {q : ℚ} {A B : ℤ} (h1 : (A : ℚ) ≤ q) (h2 : q ≤ B) (hA : -2 ^ 53 ≤ A) (hB : B ≤ 2 ^ 53) :
    ∃ r, F64.ofRat q = .fin r ∧ (A : ℚ) ≤ r ∧ r ≤ B := by
  have hAB : A ≤ B := by exact_mod_cast h1.trans h2
  have r1 := rndQ_mono h1
  have r2 := rndQ_mono h2
  rw [rndQ_int (abs_le.mpr ⟨by omega, by omega⟩)] at r1 r2
  refine ⟨rndQ q, F64.ofRat_fin ?_, r1, r2⟩
  have hb : (2 : ℚ) ^ 53 ≤ 2 ^ (1000 : ℤ) := by
    rw [show ((2 : ℚ) ^ 53) = 2 ^ (53 : ℤ) by norm_num]
    exact zpow_le_zpow_right₀ (by norm_num) (by norm_num)
  have hA' : -(2 : ℚ) ^ 53 ≤ A := by exact_mod_cast hA
  have hB' : (B : ℚ) ≤ 2 ^ 53 := by exact_mod_cast hB
  exact (abs_le.mpr ⟨by linarith, by linarith⟩ : |q| ≤ (2 : ℚ) ^ 53).trans hb

theorem fakeInt_ok {i : Nat} {a b : ℤ} {v : F64} (hi : i ≤ 200000000) (ha : -1 ≤ a) (hb : b ≤ 2) (h : Drawn a b v) :
    ∃ w, fakeInt i v = .ok w ∧ 10 * i + a ≤ w ∧ w ≤ 10 * i + b := by
  obtain ⟨q, rfl, -, h1, h2⟩ := h
  have hadd : F64.add (F64.ofInt (10 * i : Nat)) (.fin q) = F64.ofRat (((10 * i : Nat) : ℤ) + q) := by
    rw [F64.ofInt_exact (by rw [abs_le]; omega)]
    rfl
  obtain ⟨r, hr, r1, r2⟩ := small_ofRat (q := (((10 * i : Nat) : ℤ) : ℚ) + q) (A := ((10 * i : Nat) : ℤ) + a) (B := ((10 * i : Nat) : ℤ) + b)
    (by push_cast; linarith) (by push_cast; linarith) (by omega) (by omega)
  obtain ⟨t1, t2⟩ := trunc_between r1 r2
  refine ⟨F64.truncQ r, ?_, by push_cast at t1; exact t1, by push_cast at t2; exact t2⟩
  unfold fakeInt
  rw [if_pos (by omega), hadd, hr]
  simp only [F64.toI32?]
  rw [if_pos (by constructor <;> omega)]

theorem fakeInt_zero {v : F64} (h : Drawn (-1) 1 v) (hne : v ≠ .fin (-1)) : ∃ w, fakeInt 0 v = .ok w ∧ 0 ≤ w ∧ w ≤ 1 := by
  obtain ⟨q, rfl, hq, h1, h2⟩ := h
  have h1' : -1 < q := lt_of_le_of_ne h1 (by rintro rfl; exact hne rfl)
  have hadd : F64.add (F64.ofInt (10 * 0 : Nat)) (.fin q) = .fin q := by
    rw [F64.ofInt_exact (by simp)]
    show F64.ofRat _ = _
    rw [← hq]; simp
  have t : 0 ≤ F64.truncQ q ∧ F64.truncQ q ≤ 1 := by
    unfold F64.truncQ
    split_ifs with h
    · refine ⟨Int.floor_nonneg.mpr h, ?_⟩
      have := (Int.floor_le q).trans h2
      exact_mod_cast this
    · refine ⟨?_, Int.ceil_le.mpr (by simpa using h2)⟩
      have : -1 < ⌈q⌉ := Int.lt_ceil.mpr (by simpa using h1')
      omega
  refine ⟨F64.truncQ q, ?_, t⟩
  unfold fakeInt
  rw [if_pos (by omega), hadd]
  simp only [F64.toI32?]
  rw [if_pos (by constructor <;> omega)]

theorem drawn_i32 {v : F64} {b : ℤ} (h : Drawn 0 b v) (hb : b ≤ 2000) : ∃ w, v.toI32? = some w ∧ 0 ≤ w ∧ w ≤ b := by
  obtain ⟨q, rfl, -, h1, h2⟩ := h
  obtain ⟨t1, t2⟩ := trunc_between (A := 0) (by simpa using h1) h2
  refine ⟨F64.truncQ q, ?_, t1, t2⟩
  simp only [F64.toI32?]
  rw [if_pos (by constructor <;> omega)]

theorem drawn_u32 {v : F64} (h : Drawn 0 2000 v) : ∃ w, toU32? v = some w ∧ w ≤ 2000 := by
  obtain ⟨q, rfl, -, h1, h2⟩ := h
  obtain ⟨t1, t2⟩ := trunc_between (A := 0) (B := 2000) (q := q) (by simpa using h1) (by simpa using h2)
  refine ⟨(F64.truncQ q).toNat, ?_, by omega⟩
  simp only [toU32?]
  rw [if_pos ⟨by linarith, by linarith⟩]

/-- What is known of a generated hit. -/
structure FakeAt (x y t : Int) (h : Hit) : Prop where
  x : h.x = x
  y : h.y = y
  t : (h.spidertime.toNat : Int) = t
  tot : 0 ≤ h.tot ∧ h.tot ≤ 100
  tof : ∃ f, h.tof = some f ∧ f.toNat ≤ 2000

theorem fakeMembers_ok {x y t : Int} (ht : 0 ≤ t ∧ t < 2 ^ 32) (ds : List HitDraw) (hd : ∀ d ∈ ds, DrawnHit d) :
    ∃ hs, fakeMembers x y t ds = .ok hs ∧ hs.length = ds.length ∧ ∀ h ∈ hs, FakeAt x y t h := by
  induction ds with
  | nil => exact ⟨[], rfl, rfl, by simp⟩
  | cons d ds ih =>
    obtain ⟨hs, h1, h2, h3⟩ := ih (fun e he => hd e (by simp [he]))
    obtain ⟨d1, d2, d3, d4⟩ := hd d (by simp)
    obtain ⟨w1, e1, b1⟩ := drawn_i32 (b := 100) (by simpa using d1) (by norm_num)
    obtain ⟨w2, e2, b2⟩ := drawn_i32 (b := 1000) (by simpa using d2) (by norm_num)
    obtain ⟨w3, e3, b3⟩ := drawn_i32 (b := 255) (by simpa using d3) (by norm_num)
    obtain ⟨w4, e4, b4⟩ := drawn_u32 d4
    have hf : fakeHit x y t d = .ok ⟨x, y, w1, w2, w3, some (BitVec.ofNat 32 w4), BitVec.ofInt 64 t⟩ := by
      unfold fakeHit
      rw [e1, e2, e3, e4]
    refine ⟨⟨x, y, w1, w2, w3, some (BitVec.ofNat 32 w4), BitVec.ofInt 64 t⟩ :: hs, ?_, by simp [h2], ?_⟩
    · simp only [fakeMembers, bind, Res.bind, hf, h1]
    · intro h hh
      rcases List.mem_cons.mp hh with rfl | hh
      · refine ⟨rfl, rfl, ?_, b1, _, rfl, ?_⟩
        · simp only [BitVec.toNat_ofInt]
          omega
        · rw [BitVec.toNat_ofNat]; omega
      · exact h3 h hh

theorem fakeCluster_ok {i : Nat} {c : ClusterDraw} (hi : i ≤ 200000000) (hc : DrawnCluster c)
    (h0 : i = 0 → c.time ≠ .fin (-1)) :
    ∃ hs, fakeCluster i c = .ok hs ∧ hs.length = 10 ∧ AtCluster i hs := by
  obtain ⟨x, ex, bx⟩ := fakeInt_ok (a := 0) (b := 2) hi (by norm_num) (by norm_num) (by simpa using hc.x)
  obtain ⟨y, ey, bY⟩ := fakeInt_ok (a := 0) (b := 2) hi (by norm_num) (by norm_num) (by simpa using hc.y)
  obtain ⟨t, et, bt, t0⟩ : ∃ w, fakeInt i c.time = .ok w ∧ (10 * i - 1 ≤ w ∧ w ≤ 10 * i + 1) ∧ 0 ≤ w := by
    by_cases hz : i = 0
    · subst hz
      obtain ⟨w, e, b⟩ := fakeInt_zero hc.time (h0 rfl)
      exact ⟨w, e, by omega, b.1⟩
    · obtain ⟨w, e, b⟩ := fakeInt_ok (a := -1) (b := 1) hi (by norm_num) (by norm_num) (by simpa using hc.time)
      exact ⟨w, e, by omega, by omega⟩
  obtain ⟨hs, e, hl, hh⟩ := fakeMembers_ok (x := x) (y := y) (t := t) ⟨t0, by omega⟩ c.hits hc.hits
  refine ⟨hs, ?_, hl.trans hc.size, x, y, t, by omega, by omega, bt, t0, fun h hm => ?_⟩
  · simp only [fakeCluster, bind, Res.bind, ex, ey, et, e]
  · obtain ⟨a1, a2, a3, a4, a5⟩ := hh h hm
    exact ⟨a1, a2, a3, a4, a5⟩

theorem fakeFrom_ok {i : Nat} {cs : List ClusterDraw} (hi : i + cs.length ≤ 200000000) (hc : ∀ c ∈ cs, DrawnCluster c)
    (h0 : i = 0 → ∀ c, cs.head? = some c → c.time ≠ .fin (-1)) :
    ∃ hs, fakeFrom i cs = .ok hs ∧ hs.length = 10 * cs.length ∧ ∀ j < cs.length, AtCluster (i + j) (generated hs j) := by
  induction cs generalizing i with
  | nil => exact ⟨[], rfl, rfl, by simp⟩
  | cons c cs ih =>
    rw [List.length_cons] at hi
    obtain ⟨hs, h1, h2, h3⟩ := ih (i := i + 1) (by omega) (fun c hc' => hc c (by simp [hc'])) (by omega)
    obtain ⟨gs, g1, g2, g3⟩ := fakeCluster_ok (i := i) (by omega) (hc c (by simp)) (fun hz => h0 hz c rfl)
    refine ⟨gs ++ hs, ?_, by simp [h2, g2]; ring, ?_⟩
    · simp only [fakeFrom, bind, Res.bind, g1, h1]
    · intro j hj
      cases j with
      | zero =>
        unfold generated
        rw [Nat.mul_zero, List.drop_zero, List.take_append_of_le_length (by omega), List.take_of_length_le (by omega)]
        exact g3
      | succ j =>
        have := h3 j (by simpa using hj)
        unfold generated at this ⊢
        rw [List.drop_append, List.drop_of_length_le (by omega), g2, List.nil_append,
          show 10 * (j + 1) - 10 = 10 * j by omega, show i + (j + 1) = i + 1 + j by ring]
        exact this

/-- C95: for every draw of the random numbers (of which the first arrival time is not exactly the lower end of its range) the
generator returns ten hits per cluster, cluster after cluster, each cluster at one place and at one time. -/
theorem c95_hits (cs : List ClusterDraw) (hn : cs.length ≤ 200000000) (hc : ∀ c ∈ cs, DrawnCluster c)
    (h0 : ∀ c, cs.head? = some c → c.time ≠ .fin (-1)) :
    ∃ hits, fakeHits cs = .ok hits ∧ hits.length = 10 * cs.length ∧ ∀ i < cs.length, AtCluster i (generated hits i) := by
  obtain ⟨hs, h1, h2, h3⟩ := fakeFrom_ok (i := 0) (by omega) hc (fun _ => h0)
  exact ⟨hs, h1, h2, fun j hj => by simpa using h3 j hj⟩

/-! ## Pieces of the hits -/

theorem partOf_later {hits : List Hit} {lo lo' hi i : Nat} (h1 : lo ≤ 10 * i) (h2 : lo' ≤ 10 * i) :
    partOf hits lo hi i = partOf hits lo' hi i := by
  unfold partOf
  rw [max_eq_right h1, max_eq_right h2]

theorem touched_cons {lo hi : Nat} (h : lo < hi) : touched lo hi = (lo / 10) :: touched (10 * (lo / 10 + 1)) hi := by
  unfold touched
  obtain ⟨k, hk⟩ : ∃ k, (hi + 9) / 10 - lo / 10 = k + 1 := ⟨(hi + 9) / 10 - lo / 10 - 1, by omega⟩
  rw [hk, List.range'_succ, show 10 * (lo / 10 + 1) / 10 = lo / 10 + 1 by omega,
    show (hi + 9) / 10 - (lo / 10 + 1) = k by omega]

theorem touched_nil {lo hi : Nat} (h : hi ≤ lo) (h10 : lo % 10 = 0) : touched lo hi = [] := by
  unfold touched
  rw [show (hi + 9) / 10 - lo / 10 = 0 by omega]
  rfl

theorem mem_touched {lo hi i : Nat} (h : i ∈ touched lo hi) : lo / 10 ≤ i ∧ 10 * i < hi := by
  unfold touched at h
  rw [List.mem_range'_1] at h
  omega

theorem part_cons {hits : List Hit} {lo hi : Nat} (h : lo < hi) :
    (touched lo hi).map (partOf hits lo hi) =
      (hits.drop lo).take (min hi (10 * (lo / 10) + 10) - lo) ::
        (touched (10 * (lo / 10 + 1)) hi).map (partOf hits (10 * (lo / 10 + 1)) hi) := by
  rw [touched_cons h, List.map_cons]
  congr 1
  · unfold partOf
    rw [max_eq_left (by omega)]
  · refine List.map_congr_left fun i hi' => ?_
    have := (mem_touched hi').1
    exact partOf_later (by omega) (by omega)

theorem pieceBound (lo hi : Nat) : lo ≤ hi ∨ lo % 10 = 0 → lo < hi ∨ touched lo hi = [] ∨ (hi = lo ∧ lo % 10 ≠ 0) := by
  intro h
  by_cases h1 : lo < hi
  · exact Or.inl h1
  · by_cases h2 : lo % 10 = 0
    · exact Or.inr (Or.inl (touched_nil (by omega) h2))
    · exact Or.inr (Or.inr ⟨by omega, h2⟩)

/-- The parts make up the piece, and their numbers are the numbers of the clusters. -/
theorem parts_of_piece (hits : List Hit) (hi : Nat) (hhi : hi ≤ hits.length) (n lo m : Nat) (hn : hi - lo ≤ n) (hlt : lo < hi) :
    ((touched lo hi).map (partOf hits lo hi)).flatten = (hits.drop lo).take (hi - lo) ∧
    burstNumbers m ((touched lo hi).map (partOf hits lo hi)) =
      (List.range (hi - lo)).map fun j => ((m + ((lo + j) / 10 - lo / 10) : Nat) : Int) := by
  induction n generalizing lo m with
  | zero => omega
  | succ n ih =>
    rw [part_cons hlt]
    have hlen : ((hits.drop lo).take (min hi (10 * (lo / 10) + 10) - lo)).length = min hi (10 * (lo / 10) + 10) - lo := by
      rw [List.length_take, List.length_drop]; omega
    by_cases hlast : hi ≤ 10 * (lo / 10 + 1)
    · rw [touched_nil hlast (by omega), List.map_nil]
      constructor
      · rw [List.flatten_cons, List.flatten_nil, List.append_nil, min_eq_left (by omega)]
      · rw [burstNumbers, burstNumbers, List.append_nil, hlen, min_eq_left (by omega)]
        symm
        rw [List.eq_replicate_iff]
        refine ⟨by simp, fun b hb => ?_⟩
        obtain ⟨j, hj, rfl⟩ := List.mem_map.mp hb
        rw [List.mem_range] at hj
        rw [show (lo + j) / 10 - lo / 10 = 0 by omega, Nat.add_zero]
    · obtain ⟨h1, h2⟩ := ih (10 * (lo / 10 + 1)) (m + 1) (by omega) (by omega)
      constructor
      · rw [List.flatten_cons, h1, min_eq_right (by omega)]
        have e1 : hits.drop (10 * (lo / 10 + 1)) = (hits.drop lo).drop (10 * (lo / 10) + 10 - lo) := by
          rw [List.drop_drop]; congr 1; omega
        rw [e1, show hi - lo = (10 * (lo / 10) + 10 - lo) + (hi - 10 * (lo / 10 + 1)) by omega, List.take_add]
      · rw [burstNumbers, h2, hlen, min_eq_right (by omega)]
        rw [show hi - lo = (10 * (lo / 10) + 10 - lo) + (hi - 10 * (lo / 10 + 1)) by omega, List.range_add, List.map_append,
          List.map_map]
        congr 1
        · symm
          rw [List.eq_replicate_iff]
          refine ⟨by simp, fun b hb => ?_⟩
          obtain ⟨j, hj, rfl⟩ := List.mem_map.mp hb
          rw [List.mem_range] at hj
          rw [show (lo + j) / 10 - lo / 10 = 0 by omega, Nat.add_zero]
        · refine List.map_congr_left fun j _ => ?_
          simp only [Function.comp]
          congr 1
          omega

theorem members_bursts (bursts : List (List Hit)) (m : Nat) (i : Nat) (hi : i < bursts.length) :
    members bursts.flatten (burstNumbers m bursts) ((m + i : Nat) : Int) = bursts[i] := by
  induction bursts generalizing m i with
  | nil => simp at hi
  | cons b bs ih =>
    have hl : ∀ (m : Nat) (l : Int), l ∈ burstNumbers m bs → (m : Int) ≤ l := by
      clear ih hi
      induction bs with
      | nil => simp [burstNumbers]
      | cons c bs ih =>
        intro m l h
        rw [burstNumbers, List.mem_append] at h
        rcases h with h | h
        · rw [(List.mem_replicate.mp h).2]
        · have := ih (m + 1) l h
          omega
    have hz : ∀ (m : Nat), (burstNumbers m bs).length = bs.flatten.length := by
      clear ih hi hl
      induction bs with
      | nil => intro m; rfl
      | cons c bs ih => intro m; simp [burstNumbers, ih]
    rw [burstNumbers, List.flatten_cons, members_append _ _ _ _ _ (by simp)]
    cases i with
    | zero =>
      rw [Nat.add_zero, members_replicate, members_nil_of_not_mem, List.append_nil]
      · rfl
      · intro h
        have := hl (m + 1) _ h
        omega
    | succ i =>
      rw [members_replicate_ne _ _ _ _ (by omega), List.nil_append, show m + (i + 1) = (m + 1) + i by ring,
        ih (m + 1) i (by simpa using hi)]
      rfl

/-! ## Clustering a piece -/

/-- `hits` is a list as the generator returns it. -/
def Generated (n : Nat) (hits : List Hit) : Prop :=
  hits.length = 10 * n ∧ n ≤ 200000000 ∧ ∀ i < n, AtCluster i (generated hits i)

theorem partOf_subset {hits : List Hit} {lo hi i : Nat} : ∀ h ∈ partOf hits lo hi i, h ∈ generated hits i := by
  intro h hh
  unfold partOf at hh
  unfold generated
  have e : hits.drop (max lo (10 * i)) = (hits.drop (10 * i)).drop (max lo (10 * i) - 10 * i) := by
    rw [List.drop_drop]; congr 1; omega
  by_cases hz : min hi (10 * i + 10) - max lo (10 * i) = 0
  · rw [hz] at hh; simp at hh
  · rw [e, List.take_drop] at hh
    exact (List.take_subset_take_left _ (by omega)) (List.mem_of_mem_drop hh)

theorem partOf_length {hits : List Hit} {lo hi i : Nat} (hhi : hi ≤ hits.length) :
    (partOf hits lo hi i).length = min hi (10 * i + 10) - max lo (10 * i) := by
  unfold partOf
  rw [List.length_take, List.length_drop]
  omega

theorem compact_same {x y t : Int} {first : Hit} (hf : first.x = x ∧ first.y = y ∧ (first.spidertime.toNat : Int) = t)
    (post pre : List Hit) (hp : first ∈ pre)
    (hpost : ∀ h ∈ post, h.x = x ∧ h.y = y ∧ (h.spidertime.toNat : Int) = t) : Compact 75 5 first pre post := by
  induction post generalizing pre with
  | nil => trivial
  | cons h post ih =>
    obtain ⟨h1, h2, h3⟩ := hpost h (by simp)
    obtain ⟨f1, f2, f3⟩ := hf
    refine ⟨?_, ⟨⟨⟨_, List.mem_map_of_mem hp, ?_⟩, ⟨_, List.mem_map_of_mem hp, ?_⟩⟩,
      ⟨⟨_, List.mem_map_of_mem hp, ?_⟩, ⟨_, List.mem_map_of_mem hp, ?_⟩⟩⟩,
      ih (pre ++ [h]) (by simp [hp]) (fun g hg => hpost g (by simp [hg]))⟩
    · unfold arrivalNs
      rw [h3, f3]
      simp
    · rw [h1, f1]; norm_num
    · rw [h1, f1]; norm_num
    · rw [h2, f2]; norm_num
    · rw [h2, f2]; norm_num

theorem benchAbs_feature : benchAbs.params.feature = .fin 5 := by
  have := F64.ofRat_int (n := 5) (by norm_num)
  simpa [benchAbs, AbsObj.new] using this

theorem benchAbs_range : benchAbs.params.range = 75 := rfl

theorem at_unique {n : Nat} {hits : List Hit} (g : Generated n hits) {lo hi i : Nat} (hi' : i < n) :
    ∃ x y t : Int, (10 * i ≤ x ∧ x ≤ 10 * i + 2) ∧ (10 * i ≤ y ∧ y ≤ 10 * i + 2) ∧ (10 * i - 1 ≤ t ∧ t ≤ 10 * i + 1) ∧ 0 ≤ t ∧
      ∀ h ∈ partOf hits lo hi i, FakeAt x y t h := by
  obtain ⟨x, y, t, a, b, c, d, e⟩ := g.2.2 i hi'
  refine ⟨x, y, t, a, b, c, d, fun h hh => ?_⟩
  obtain ⟨e1, e2, e3, e4, e5⟩ := e h (partOf_subset h hh)
  exact ⟨e1, e2, e3, e4, e5⟩

/-- Clustering a piece gives every hit the number of its cluster, counted from the first one in the piece. -/
theorem piece_fit {n : Nat} {hits : List Hit} (g : Generated n hits) {lo hi : Nat} (hlt : lo < hi) (hhi : hi ≤ 10 * n)
    {slots : Nat} (hs : 0 < slots) :
    ∃ o', benchAbs.fitWith slots ((hits.drop lo).take (hi - lo)) = .ok o' ∧
      o'.labels = burstNumbers 0 ((touched lo hi).map (partOf hits lo hi)) := by
  have hhi' : hi ≤ hits.length := by rw [g.1]; exact hhi
  obtain ⟨hflat, -⟩ := parts_of_piece hits hi hhi' (hi - lo) lo 0 (Nat.le_refl _) hlt
  have hin : ∀ i ∈ touched lo hi, i < n := fun i hm => by have := (mem_touched hm).2; omega
  have hmem : ∀ h ∈ (hits.drop lo).take (hi - lo), ∃ x y t : Int, ∃ i < n, (10 * i ≤ x ∧ x ≤ 10 * i + 2) ∧
      (10 * i ≤ y ∧ y ≤ 10 * i + 2) ∧ (10 * i - 1 ≤ t ∧ t ≤ 10 * i + 1) ∧ FakeAt x y t h := by
    intro h hh
    rw [← hflat, List.mem_flatten] at hh
    obtain ⟨l, hl, hh⟩ := hh
    obtain ⟨i, hm, rfl⟩ := List.mem_map.mp hl
    obtain ⟨x, y, t, a, b, c, -, e⟩ := at_unique (lo := lo) (hi := hi) g (hin i hm)
    exact ⟨x, y, t, i, hin i hm, a, b, c, e h hh⟩
  have hn := g.2.1
  have htime : ∀ h ∈ (hits.drop lo).take (hi - lo), h.spidertime.toNat < 2 ^ 48 := by
    intro h hh
    obtain ⟨x, y, t, i, hi', -, -, c, e⟩ := hmem h hh
    have := e.t
    omega
  obtain ⟨o', ho'⟩ := fitWith_returns hs benchAbs ((hits.drop lo).take (hi - lo)) (fun h hh => by
    have := htime h hh; omega)
  refine ⟨o', ho', ?_⟩
  rw [← hflat] at ho' htime hmem
  refine fitWith_bursts hs benchAbs o' _ ho' 5 benchAbs_feature ?_ (by rw [benchAbs_range]; norm_num) htime ?_ ?_ ?_
  · rw [abs_of_pos (by norm_num)]
    calc (5 : ℚ) ≤ 2 ^ 3 := by norm_num
      _ ≤ 2 ^ 900 := pow_le_pow_right₀ (by norm_num) (by norm_num)
  · intro h hh
    obtain ⟨x, y, t, i, hi', a, b, -, e⟩ := hmem h hh
    have e1 := e.x
    have e2 := e.y
    rw [abs_le, abs_le]
    omega
  · intro b hb
    obtain ⟨i, hm, rfl⟩ := List.mem_map.mp hb
    have hpos : 0 < (partOf hits lo hi i).length := by
      rw [partOf_length hhi']
      have := mem_touched hm
      omega
    obtain ⟨x, y, t, -, -, -, -, e⟩ := at_unique (lo := lo) (hi := hi) g (hin i hm)
    cases hp : partOf hits lo hi i with
    | nil => rw [hp] at hpos; simp at hpos
    | cons f rest =>
      rw [hp] at e
      have ef := e f (by simp)
      exact compact_same ⟨ef.x, ef.y, ef.t⟩ rest [f] (by simp) (fun h hh => by
        have := e h (by simp [hh]); exact ⟨this.x, this.y, this.t⟩)
  · unfold Separated
    rw [List.pairwise_map]
    have hpw : (touched lo hi).Pairwise (· < ·) := by unfold touched; exact List.pairwise_lt_range'
    refine hpw.imp_of_mem fun {i j} hmi hmj hij => ?_
    intro a ha b hb
    obtain ⟨_, _, t, -, -, c, -, e⟩ := at_unique (lo := lo) (hi := hi) g (hin i hmi)
    obtain ⟨_, _, t', -, -, c', -, e'⟩ := at_unique (lo := lo) (hi := hi) g (hin j hmj)
    have ea := (e a ha).t
    have eb := (e' b hb).t
    unfold arrivalNs
    rw [ea, eb, benchAbs_range, lt_abs]
    left
    push_cast
    omega

/-! ## Events of a piece -/

/-- Bounds of generated hits. -/
structure WideHit (h : Hit) : Prop where
  x : 0 ≤ h.x ∧ h.x ≤ 2 ^ 31
  y : 0 ≤ h.y ∧ h.y ≤ 2 ^ 31
  tot : 0 ≤ h.tot ∧ h.tot ≤ 100
  tof : ∃ f, h.tof = some f ∧ f.toNat ≤ 2000

theorem WideHit.weighted {h : Hit} (d : WideHit h) :
    (0 ≤ h.x * h.tot ∧ h.x * h.tot ≤ 2 ^ 38) ∧ (0 ≤ h.y * h.tot ∧ h.y * h.tot ≤ 2 ^ 38) := by
  obtain ⟨⟨x0, x1⟩, ⟨y0, y1⟩, ⟨t0, t1⟩, -⟩ := d
  refine ⟨⟨mul_nonneg x0 t0, ?_⟩, ⟨mul_nonneg y0 t0, ?_⟩⟩
  · calc h.x * h.tot ≤ 2 ^ 31 * 100 := mul_le_mul (by omega) (by omega) t0 (by norm_num)
      _ ≤ 2 ^ 38 := by norm_num
  · calc h.y * h.tot ≤ 2 ^ 31 * 100 := mul_le_mul (by omega) (by omega) t0 (by norm_num)
      _ ≤ 2 ^ 38 := by norm_num

theorem WideHit.tofBounds {h : Hit} (d : WideHit h) : 0 ≤ tofOf h ∧ tofOf h ≤ 2 ^ 38 := by
  obtain ⟨t, ht, hlt⟩ := d.tof
  unfold tofOf
  rw [ht]
  simp only
  omega

theorem centroidLoop_wide (M : List Hit) (hM : ∀ h ∈ M, WideHit h) (X Y F T : ℤ)
    (hX : 0 ≤ X ∧ X + M.length * 2 ^ 38 ≤ 2 ^ 53) (hY : 0 ≤ Y ∧ Y + M.length * 2 ^ 38 ≤ 2 ^ 53)
    (hF : 0 ≤ F ∧ F + M.length * 2 ^ 38 ≤ 2 ^ 53) (hT : 0 ≤ T ∧ T + M.length * 2 ^ 38 ≤ 2 ^ 53) :
    centroidLoop true (F64.ofRat 1) ⟨.fin X, .fin Y, .fin F, .fin T⟩ M =
      .ok ⟨.fin ((X + total (fun h => h.x * h.tot) M : ℤ) : ℚ), .fin ((Y + total (fun h => h.y * h.tot) M : ℤ) : ℚ),
        .fin ((F + total tofOf M : ℤ) : ℚ), .fin ((T + total Hit.tot M : ℤ) : ℚ)⟩ := by
  induction M generalizing X Y F T with
  | nil => simp [centroidLoop, total]
  | cons h M ih =>
    have d := hM h (by simp)
    obtain ⟨⟨wx0, wx1⟩, ⟨wy0, wy1⟩⟩ := d.weighted
    obtain ⟨f0, f1⟩ := d.tofBounds
    obtain ⟨⟨x0, x1⟩, ⟨y0, y1⟩, ⟨t0, t1⟩, ⟨t, ht, htlt⟩⟩ := d
    simp only [List.length_cons, Nat.cast_add, Nat.cast_one, add_mul, one_mul] at hX hY hF hT
    have hn : (0 : ℤ) ≤ M.length * 2 ^ 38 := by positivity
    have hft : tofOf h = (t.toNat : ℤ) := by unfold tofOf; rw [ht]
    have h1 : F64.ofRat 1 = .fin ((1 : ℤ) : ℚ) := by rw [one_ofRat, Int.cast_one]
    rw [centroidLoop, centroidStep, ht]
    simp only [bind, Res.bind, if_true]
    rw [h1, F64.ofInt_exact (by rw [abs_le]; omega),
      F64.ofInt_exact (by rw [abs_le]; omega), F64.ofInt_exact (by rw [abs_le]; omega),
      F64.ofInt_exact (by rw [abs_le]; omega), mulInt (a := 1) (b := h.x) (by rw [abs_le]; omega),
      mulInt (a := 1) (b := h.y) (by rw [abs_le]; omega), one_mul, one_mul,
      mulInt (a := h.x) (by rw [abs_le]; omega), mulInt (a := h.y) (by rw [abs_le]; omega),
      addInt (a := X) (by rw [abs_le]; omega), addInt (a := Y) (by rw [abs_le]; omega),
      addInt (a := F) (by rw [abs_le]; omega), addInt (a := T) (by rw [abs_le]; omega), ← h1]
    rw [ih (fun g hg => hM g (by simp [hg])) _ _ _ _ (by omega) (by omega) (by omega) (by omega)]
    simp only [total_cons, hft]
    congr 2 <;> · congr 1; push_cast; ring

theorem centroidDoes_wide (M : List Hit) (hne : M ≠ []) (hlen : M.length ≤ 10) (hM : ∀ h ∈ M, WideHit h) : CentroidDoes M := by
  have hl : (M.length : ℤ) * 2 ^ 38 ≤ 2 ^ 53 := by omega
  have hfit : centroidFit true (F64.ofRat 1) M = .ok
      ⟨F64.mul (.fin ((total (fun h => h.x * h.tot) M : ℤ) : ℚ)) (F64.div (F64.ofRat 1) (.fin ((total Hit.tot M : ℤ) : ℚ))),
       F64.mul (.fin ((total (fun h => h.y * h.tot) M : ℤ) : ℚ)) (F64.div (F64.ofRat 1) (.fin ((total Hit.tot M : ℤ) : ℚ))),
       F64.div (.fin ((total tofOf M : ℤ) : ℚ)) (F64.ofInt M.length), .fin ((total Hit.tot M : ℤ) : ℚ), M.length⟩ := by
    unfold centroidFit
    rw [if_neg (by simpa using hne)]
    simp only [fin_zero]
    rw [centroidLoop_wide M hM 0 0 0 0 (by omega) (by omega) (by omega) (by omega)]
    simp only [bind, Res.bind, zero_add, if_true]
  have hx := total_bounds (fun h => h.x * h.tot) (2 ^ 38) M (fun h hh => (hM h hh).weighted.1)
  have hy := total_bounds (fun h => h.y * h.tot) (2 ^ 38) M (fun h hh => (hM h hh).weighted.2)
  have ht := total_bounds Hit.tot 100 M (fun h hh => by have := (hM h hh).tot; omega)
  have hf := total_bounds tofOf (2 ^ 38) M (fun h hh => (hM h hh).tofBounds)
  constructor
  · intro htot
    refine ⟨_, hfit, ?_⟩
    have hx0 : total (fun h => h.x * h.tot) M = 0 := by
      have key : ∀ M' : List Hit, (∀ h ∈ M', WideHit h) → total Hit.tot M' = 0 → total (fun h => h.x * h.tot) M' = 0 := by
        intro M' hd h0
        induction M' with
        | nil => rfl
        | cons h M' ih =>
          rw [total_cons] at h0 ⊢
          have h1 := (hd h (by simp)).tot.1
          have h2 := (total_bounds Hit.tot 100 M' (fun g hg => by have := (hd g (by simp [hg])).tot; omega)).1
          have h3 : h.tot = 0 := by omega
          rw [ih (fun g hg => hd g (by simp [hg])) (by omega), h3]
          simp
      exact key M hM htot
    unfold AbsObj.keepEvent
    rw [hx0, htot, one_ofRat]
    have hdiv : F64.div (.fin 1) (.fin ((0 : ℤ) : ℚ)) = .inf false := by simp [F64.div]
    have hmul : F64.mul (.fin ((0 : ℤ) : ℚ)) (.inf false) = .nan := by simp [F64.mul]
    rw [hdiv, hmul, fin_zero]
    rfl
  · intro htot
    have hpos : 0 < total Hit.tot M ∧ total Hit.tot M ≤ 2 ^ 53 := by omega
    have ax := mul_inv_approx _ _ (show 0 ≤ total (fun h => h.x * h.tot) M ∧ total (fun h => h.x * h.tot) M ≤ 2 ^ 53 by omega) hpos
    have ay := mul_inv_approx _ _ (show 0 ≤ total (fun h => h.y * h.tot) M ∧ total (fun h => h.y * h.tot) M ≤ 2 ^ 53 by omega) hpos
    refine ⟨_, hfit, ⟨rfl, ?_, ?_, rfl, ?_⟩, ax.2, ay.2⟩
    · have := ax.1
      unfold totMean
      rwa [Int.cast_one, one_mul]
    · have := ay.1
      unfold totMean
      rwa [Int.cast_one, one_mul]
    · exact div_approx _ _ (by omega) ⟨List.length_pos_iff.mpr hne, by omega⟩

/-- The clusters with a hit in the piece and with charge there. -/
def charged (hits : List Hit) (lo hi : Nat) : List Nat :=
  (touched lo hi).filter fun i => total Hit.tot (partOf hits lo hi i) ≠ 0

theorem forall₂_mem_left {α β : Type} {R : α → β → Prop} {l : List α} {m : List β} (h : List.Forall₂ R l m) :
    List.Forall₂ (fun a b => a ∈ l ∧ R a b) l m := by
  induction h with
  | nil => exact .nil
  | cons hab _ ih => exact .cons ⟨by simp, hab⟩ (ih.imp fun a b h => ⟨List.mem_cons_of_mem _ h.1, h.2⟩)

theorem mem_burstNumbers (bursts : List (List Hit)) (hb : ∀ b ∈ bursts, b ≠ []) (m : Nat) (l : Int) :
    l ∈ burstNumbers m bursts ↔ (m : Int) ≤ l ∧ l < m + bursts.length := by
  induction bursts generalizing m with
  | nil => simp [burstNumbers]
  | cons b bs ih =>
    rw [burstNumbers, List.mem_append, ih (fun c hc => hb c (by simp [hc])), List.mem_replicate, List.length_cons]
    have : b.length ≠ 0 := by simpa using hb b (by simp)
    push_cast
    constructor
    · rintro (⟨-, rfl⟩ | h) <;> omega
    · intro h
      by_cases e : l = m
      · exact Or.inl ⟨this, e⟩
      · right; omega

theorem piece_events {n : Nat} {hits : List Hit} (g : Generated n hits) (solve : List GaussRow → F64 × F64) {lo hi : Nat}
    (hlt : lo < hi) (hhi : hi ≤ 10 * n) {slots : Nat} (hs : 0 < slots) (o' : AbsObj)
    (ho : benchAbs.fitWith slots ((hits.drop lo).take (hi - lo)) = .ok o') :
    ∃ events, o'.getEvents solve ((hits.drop lo).take (hi - lo)) = .ok events ∧
      List.Forall₂ (fun i e => IsEventOf 1 (partOf hits lo hi i) e) (charged hits lo hi) events := by
  have hhi' : hi ≤ hits.length := by rw [g.1]; exact hhi
  obtain ⟨o2, ho2, hlab⟩ := piece_fit g hlt hhi hs
  rw [ho] at ho2
  injection ho2 with ho2
  subst ho2
  obtain ⟨hflat, -⟩ := parts_of_piece hits hi hhi' (hi - lo) lo 0 (Nat.le_refl _) hlt
  set data := (hits.drop lo).take (hi - lo) with hdata
  set K := (hi + 9) / 10 - lo / 10 with hK
  have htouched : touched lo hi = (List.range K).map (lo / 10 + ·) := by
    unfold touched; rw [List.range'_eq_map_range]
  have hin : ∀ l < K, lo / 10 + l ∈ touched lo hi := by
    intro l hl
    rw [htouched]
    exact List.mem_map.mpr ⟨l, List.mem_range.mpr hl, rfl⟩
  have hlenp : ((touched lo hi).map (partOf hits lo hi)).length = K := by rw [htouched]; simp
  have hmem : ∀ l : Nat, l < K → members data o'.labels (l : Int) = partOf hits lo hi (lo / 10 + l) := by
    intro l hl
    have := members_bursts ((touched lo hi).map (partOf hits lo hi)) 0 l (by omega)
    rw [hflat, ← hlab, Nat.zero_add] at this
    rw [this]
    simp [htouched]
  have hne : ∀ l < K, partOf hits lo hi (lo / 10 + l) ≠ [] := by
    intro l hl h
    have := partOf_length (lo := lo) (i := lo / 10 + l) hhi'
    rw [h, List.length_nil] at this
    have := mem_touched (hin l hl)
    omega
  have hlab' : ∀ l : Int, l ∈ o'.labels ↔ 0 ≤ l ∧ l < K := by
    intro l
    rw [hlab, mem_burstNumbers]
    · rw [hlenp]; simp
    · intro b hb
      obtain ⟨i, hi', rfl⟩ := List.mem_map.mp hb
      rw [htouched] at hi'
      obtain ⟨l, hl, rfl⟩ := List.mem_map.mp hi'
      exact hne l (List.mem_range.mp hl)
  obtain ⟨k, es, hk, he, hes⟩ := fitWith_events_of hs solve benchAbs o' data ho rfl (by
    intro l hl
    obtain ⟨h0, h1⟩ := (hlab' l).mp hl
    obtain ⟨l, rfl⟩ := Int.eq_ofNat_of_zero_le h0
    have hl' : l < K := by omega
    have e := hmem l hl'
    show CentroidDoes (members data o'.labels (l : Int))
    rw [e]
    obtain ⟨x, y, t, a, b, c, d, f⟩ := at_unique (lo := lo) (hi := hi) (i := lo / 10 + l) g (by
      have := (mem_touched (hin l hl')).2; omega)
    have hn := g.2.1
    have hlt' := (mem_touched (hin l hl')).2
    refine centroidDoes_wide _ (hne l hl') (by rw [partOf_length hhi']; omega) fun h hh => ?_
    obtain ⟨f1, f2, f3, f4, f5⟩ := f h hh
    exact ⟨by omega, by omega, f4, f5⟩)
  refine ⟨es, he, ?_⟩
  have hkK : k = K := by
    have h1 := fun l : Int => (hk l).symm.trans (hlab' l)
    have h2 := h1 ((k : Int) - 1)
    have h3 := h1 ((K : Int) - 1)
    omega
  rw [hkK] at hes
  unfold charged
  rw [htouched, List.filter_map, List.forall₂_map_left_iff]
  have hfil : (List.range K).filter ((fun i => decide (total Hit.tot (partOf hits lo hi i) ≠ 0)) ∘ fun x => lo / 10 + x) =
      (List.range K).filter fun (l : Nat) => benchAbs.params.minSize ≤ (members data o'.labels (l : Int)).length ∧
          total Hit.tot (members data o'.labels (l : Int)) ≠ 0 := by
    refine List.filter_congr fun l hl => ?_
    rw [List.mem_range] at hl
    rw [hmem l hl]
    have h1 : 1 ≤ (partOf hits lo hi (lo / 10 + l)).length := List.length_pos_iff.mpr (hne l hl)
    simp only [Function.comp]
    rw [decide_eq_decide]
    exact ⟨fun h => ⟨h1, h⟩, fun h => h.2⟩
  rw [hfil]
  refine List.Forall₂.imp ?_ (forall₂_mem_left hes)
  rintro l e ⟨hl, h⟩
  rw [hmem l (List.mem_range.mp (List.mem_of_mem_filter hl))] at h
  exact h

/-! ## The programs -/

theorem generated_eq {hits : List Hit} {n i : Nat} (_ : hits.length = 10 * n) (hi : i < n) :
    partOf hits 0 (10 * n) i = generated hits i := by
  unfold partOf generated
  rw [Nat.max_eq_right (by omega), min_eq_right (by omega), show 10 * i + 10 - 10 * i = 10 by omega]

theorem generated_of {cs : List ClusterDraw} {hits : List Hit} (hn : cs.length ≤ 200000000) (hc : ∀ c ∈ cs, DrawnCluster c)
    (h0 : ∀ c, cs.head? = some c → c.time ≠ .fin (-1)) (h : fakeHits cs = .ok hits) : Generated cs.length hits := by
  obtain ⟨hs, h1, h2, h3⟩ := c95_hits cs hn hc h0
  rw [h] at h1
  injection h1 with h1
  subst h1
  exact ⟨h2, hn, h3⟩

/-- The events of the generated clusters that have charge, in order. -/
def FoundEvents (hits : List Hit) (n : Nat) (events : List Neutron) : Prop :=
  List.Forall₂ (fun i e => IsEventOf 1 (generated hits i) e)
    ((List.range n).filter fun i => total Hit.tot (generated hits i) ≠ 0) events

theorem eventsOf_of {hits : List Hit} {n : Nat} {events : List Neutron} (hlen : hits.length = 10 * n)
    (h : List.Forall₂ (fun i e => IsEventOf 1 (partOf hits 0 (10 * n) i) e) (charged hits 0 (10 * n)) events) :
    FoundEvents hits n events := by
  unfold charged touched at h
  rw [show (10 * n + 9) / 10 - 0 / 10 = n by omega, ← List.range_eq_range'] at h
  unfold FoundEvents
  have hf : (List.range n).filter (fun i => decide (total Hit.tot (partOf hits 0 (10 * n) i) ≠ 0)) =
      (List.range n).filter fun i => decide (total Hit.tot (generated hits i) ≠ 0) := by
    refine List.filter_congr fun i hi => ?_
    rw [generated_eq hlen (List.mem_range.mp hi)]
  rw [hf] at h
  refine (forall₂_mem_left h).imp fun i e he => ?_
  rw [← generated_eq hlen (List.mem_range.mp (List.mem_of_mem_filter he.1))]
  exact he.2

theorem whole_fit {n : Nat} {hits : List Hit} (g : Generated n hits) (hn : 0 < n) {slots : Nat} (hs : 0 < slots) :
    ∃ o', benchAbs.fitWith slots hits = .ok o' ∧ o'.labels = (List.range (10 * n)).map fun j => ((j / 10 : Nat) : Int) := by
  obtain ⟨o', h1, h2⟩ := piece_fit g (lo := 0) (hi := 10 * n) (by omega) (Nat.le_refl _) hs
  rw [(parts_of_piece hits (10 * n) (by rw [g.1]) (10 * n) 0 0 (by omega) (by omega)).2] at h2
  rw [List.drop_zero, List.take_of_length_le (by rw [g.1]; omega)] at h1
  refine ⟨o', h1, h2.trans ?_⟩
  simp

theorem whole_events {n : Nat} {hits : List Hit} (g : Generated n hits) (hn : 0 < n) (solve : List GaussRow → F64 × F64)
    {slots : Nat} (hs : 0 < slots) (o' : AbsObj) (ho : benchAbs.fitWith slots hits = .ok o') :
    ∃ events, o'.getEvents solve hits = .ok events ∧ FoundEvents hits n events := by
  have hw : (hits.drop 0).take (10 * n - 0) = hits := by
    rw [List.drop_zero, List.take_of_length_le (by rw [g.1]; omega)]
  obtain ⟨es, h1, h2⟩ := piece_events g solve (lo := 0) (hi := 10 * n) (by omega) (Nat.le_refl _) hs o' (by rw [hw]; exact ho)
  rw [hw] at h1
  exact ⟨es, h1, eventsOf_of g.1 h2⟩

/-- C95: both libraries, the fast one with eight and the legacy one with four open clusters, find exactly the generated
clusters: hit number `j` gets label `j / 10`. -/
theorem c95_labels (cs : List ClusterDraw) (hits : List Hit) (hne : cs ≠ []) (hn : cs.length ≤ 200000000)
    (hc : ∀ c ∈ cs, DrawnCluster c) (h0 : ∀ c, cs.head? = some c → c.time ≠ .fin (-1)) (h : fakeHits cs = .ok hits) :
    (∃ o', benchAbs.fit hits = .ok o' ∧ o'.labels = (List.range (10 * cs.length)).map fun j => ((j / 10 : Nat) : Int)) ∧
    (∃ o', benchAbs.legacyFit hits = .ok o' ∧ o'.labels = (List.range (10 * cs.length)).map fun j => ((j / 10 : Nat) : Int)) := by
  have g := generated_of hn hc h0 h
  have hpos : 0 < cs.length := List.length_pos_iff.mpr hne
  exact ⟨whole_fit g hpos (by decide), whole_fit g hpos (by decide)⟩

/-- C95: the benchmark of the fast library and the one of the legacy library return one event per generated cluster, except
for clusters of ten hits without charge. -/
theorem c95_events_partial (solve : List GaussRow → F64 × F64) (cs : List ClusterDraw) (hits : List Hit) (hne : cs ≠ [])
    (hn : cs.length ≤ 200000000) (hc : ∀ c ∈ cs, DrawnCluster c) (h0 : ∀ c, cs.head? = some c → c.time ≠ .fin (-1))
    (h : fakeHits cs = .ok hits) :
    (∃ events, hits2events solve hits = .ok events ∧ FoundEvents hits cs.length events) ∧
    (∃ events, runSingleTest solve hits = .ok events ∧ FoundEvents hits cs.length events) := by
  have g := generated_of hn hc h0 h
  have hpos : 0 < cs.length := List.length_pos_iff.mpr hne
  have hhits : hits ≠ [] := by
    intro e
    have := g.1
    rw [e, List.length_nil] at this
    omega
  constructor
  · obtain ⟨o', ho, -⟩ := whole_fit g hpos (slots := numClusters) (by decide)
    obtain ⟨es, he, hes⟩ := whole_events g hpos solve (by decide) o' ho
    refine ⟨es, ?_, hes⟩
    have ho' : benchAbs.fit hits = .ok o' := ho
    simp only [hits2events, bind, Res.bind, ho']
    exact he
  · obtain ⟨o', ho, -⟩ := whole_fit g hpos (slots := legacyClusters) (by decide)
    obtain ⟨es, he, hes⟩ := whole_events g hpos solve (by decide) o' ho
    refine ⟨es, ?_, hes⟩
    have ho' : benchAbs.legacyFit hits = .ok o' := ho
    have hm : o'.setMethod "centroid" = o' := by
      have := (fitWith_inv (by decide) ho).choose_spec.choose_spec.choose_spec.2.2.1
      cases o'
      simp only [AbsObj.setMethod] at *
      rw [this]
      rfl
    simp only [runSingleTest, bind, Res.bind, ho', hm]
    rw [legacyEvents_eq _ _ _ hhits]
    exact he

theorem total_const (M : List Hit) (f : Hit → Int) (v : Int) (h : ∀ g ∈ M, f g = v) :
    total (fun g => f g * g.tot) M = v * total Hit.tot M := by
  induction M with
  | nil => simp [total]
  | cons a M ih =>
    rw [total_cons, total_cons, ih (fun g hg => h g (by simp [hg])), h a (by simp)]
    ring

/-- C95: each of these events has ten hits and lies, up to rounding, at the place of its cluster, within two pixels of
`(10 i, 10 i)`. -/
theorem c95_position (cs : List ClusterDraw) (hits : List Hit) (hn : cs.length ≤ 200000000)
    (hc : ∀ c ∈ cs, DrawnCluster c) (h0 : ∀ c, cs.head? = some c → c.time ≠ .fin (-1)) (h : fakeHits cs = .ok hits)
    (i : Nat) (hi : i < cs.length) (htot : total Hit.tot (generated hits i) ≠ 0) (e : Neutron)
    (he : IsEventOf 1 (generated hits i) e) :
    e.nHits = 10 ∧ ∃ x y : Int, (∀ g ∈ generated hits i, g.x = x ∧ g.y = y) ∧
      (10 * i ≤ x ∧ x ≤ 10 * i + 2) ∧ (10 * i ≤ y ∧ y ≤ 10 * i + 2) ∧
      Approx (1 / 2 ^ 51) e.x x ∧ Approx (1 / 2 ^ 51) e.y y := by
  have g := generated_of hn hc h0 h
  obtain ⟨x, y, t, bx, bY, -, -, hall⟩ := g.2.2 i hi
  have htq : (total Hit.tot (generated hits i) : ℚ) ≠ 0 := by exact_mod_cast htot
  refine ⟨?_, x, y, fun a ha => ⟨(hall a ha).1, (hall a ha).2.1⟩, bx, bY, ?_, ?_⟩
  · rw [he.nHits]
    unfold generated
    rw [List.length_take, List.length_drop, g.1]
    omega
  · have := he.x
    unfold totMean at this
    rw [total_const _ Hit.x x (fun a ha => (hall a ha).1)] at this
    push_cast at this
    rwa [mul_div_assoc, div_self htq, mul_one, one_mul] at this
  · have := he.y
    unfold totMean at this
    rw [total_const _ Hit.y y (fun a ha => (hall a ha).2.1)] at this
    push_cast at this
    rwa [mul_div_assoc, div_self htq, mul_one, one_mul] at this

/-! ## Threads -/

/-- Number of the first hit of thread `i` of `k`. -/
def pieceStart (n k i : Nat) : Nat := if i = k then 10 * n else i * (10 * n / k)

theorem pieceStart_le {n k i : Nat} (hi : i ≤ k) : pieceStart n k i ≤ 10 * n := by
  unfold pieceStart
  split_ifs
  · exact Nat.le_refl _
  · exact (Nat.mul_le_mul_right _ hi).trans (Nat.mul_div_le _ _)

theorem pieceStart_lt {n k i : Nat} (hi : i < k) (hk : k ≤ 10 * n) : pieceStart n k i < pieceStart n k (i + 1) := by
  have hc : 0 < 10 * n / k := Nat.div_pos hk (by omega)
  unfold pieceStart
  rw [if_neg (by omega)]
  split_ifs with h
  · have h1 : (i + 1) * (10 * n / k) ≤ 10 * n := by rw [h]; exact Nat.mul_div_le _ _
    have h2 : (i + 1) * (10 * n / k) = i * (10 * n / k) + 10 * n / k := by ring
    omega
  · have h2 : (i + 1) * (10 * n / k) = i * (10 * n / k) + 10 * n / k := by ring
    omega

theorem threadPiece_eq {n k i : Nat} {hits : List Hit} (hlen : hits.length = 10 * n) (hi : i < k) :
    threadPiece hits k i = (hits.drop (pieceStart n k i)).take (pieceStart n k (i + 1) - pieceStart n k i) := by
  unfold threadPiece pieceStart
  rw [hlen, if_neg (show ¬ i = k by omega)]
  by_cases h : i + 1 = k
  · rw [if_pos (by omega), if_pos h, List.take_of_length_le]
    rw [List.length_drop, hlen]
  · rw [if_neg (by omega), if_neg h]
    congr 1
    rw [show (i + 1) * (10 * n / k) = i * (10 * n / k) + 10 * n / k by ring, Nat.add_sub_cancel_left]

theorem threadTask_of {n k : Nat} {hits : List Hit} (g : Generated n hits) (solve : List GaussRow → F64 × F64) (hk : k ≤ 10 * n)
    {i : Nat} (hi : i < k) :
    ∃ events, threadTask solve (threadPiece hits k i) = .ok events ∧
      List.Forall₂ (fun c e => IsEventOf 1 (partOf hits (pieceStart n k i) (pieceStart n k (i + 1)) c) e)
        (charged hits (pieceStart n k i) (pieceStart n k (i + 1))) events := by
  have hlt := pieceStart_lt hi hk
  have hle := pieceStart_le (n := n) (k := k) (i := i + 1) (by omega)
  obtain ⟨o', ho, -⟩ := piece_fit g hlt hle (slots := legacyClusters) (by decide)
  obtain ⟨es, he, hes⟩ := piece_events g solve hlt hle (by decide) o' ho
  refine ⟨es, ?_, hes⟩
  rw [threadPiece_eq g.1 hi]
  have ho' : benchAbs.legacyFit ((hits.drop (pieceStart n k i)).take (pieceStart n k (i + 1) - pieceStart n k i)) = .ok o' := ho
  simp only [threadTask, bind, Res.bind, ho']
  rw [legacyEvents_eq]
  · exact he
  · intro e
    have := congrArg List.length e
    rw [List.length_take, List.length_drop, List.length_nil, g.1] at this
    omega

/-- C95: with at most as many threads as hits, thread `i` returns one event for every cluster that has charge in its piece. -/
theorem c95_threads_partial (solve : List GaussRow → F64 × F64) (cs : List ClusterDraw) (hits : List Hit)
    (hn : cs.length ≤ 200000000) (hc : ∀ c ∈ cs, DrawnCluster c) (h0 : ∀ c, cs.head? = some c → c.time ≠ .fin (-1))
    (h : fakeHits cs = .ok hits) (k : Nat) (hk : k ≤ 10 * cs.length) (i : Nat) (hi : i < k) :
    ∃ events, (singleTest solve hits k)[i]? = some (.ok events) ∧
      List.Forall₂ (fun c e => IsEventOf 1 (partOf hits (pieceStart cs.length k i) (pieceStart cs.length k (i + 1)) c) e)
        (charged hits (pieceStart cs.length k i) (pieceStart cs.length k (i + 1))) events := by
  obtain ⟨es, h1, h2⟩ := threadTask_of (generated_of hn hc h0 h) solve hk hi
  refine ⟨es, ?_, h2⟩
  unfold singleTest
  simp [hi, h1]

/-- C95: the number of clusters that the threads find is the number of generated clusters plus the number of cuts between two
threads that fall into a cluster. -/
theorem c95_cuts (n k : Nat) (hk : 0 < k) (hkn : k ≤ 10 * n) :
    ((List.range k).map fun i => (touched (pieceStart n k i) (pieceStart n k (i + 1))).length).sum =
      n + ((List.range k).filter fun i => i * (10 * n / k) % 10 ≠ 0).length := by
  have key : ∀ m ≤ k, 0 < m → ((List.range m).map fun i => (touched (pieceStart n k i) (pieceStart n k (i + 1))).length).sum =
      (pieceStart n k m + 9) / 10 + ((List.range m).filter fun i => i * (10 * n / k) % 10 ≠ 0).length := by
    intro m
    induction m with
    | zero => omega
    | succ m ih =>
      intro hm _
      rw [List.range_succ, List.map_append, List.sum_append, List.filter_append, List.length_append]
      have hlt := pieceStart_lt (n := n) (k := k) (i := m) (by omega) hkn
      have hlen : (touched (pieceStart n k m) (pieceStart n k (m + 1))).length =
          (pieceStart n k (m + 1) + 9) / 10 - pieceStart n k m / 10 := by unfold touched; simp
      rw [List.map_singleton, List.sum_singleton, hlen]
      have hs : pieceStart n k m = m * (10 * n / k) := by unfold pieceStart; rw [if_neg (by omega)]
      by_cases hz : m = 0
      · subst hz
        simp [hs]
      · rw [ih (by omega) (by omega)]
        by_cases hmod : m * (10 * n / k) % 10 = 0
        · rw [List.filter_cons_of_neg (by simpa using hmod), List.filter_nil, List.length_nil]
          omega
        · rw [List.filter_cons_of_pos (by simpa using hmod), List.filter_nil, List.length_singleton]
          omega
  rw [key k (Nat.le_refl _) hk]
  have : pieceStart n k k = 10 * n := by unfold pieceStart; rw [if_pos rfl]
  rw [this]
  omega

theorem aligned_step {n k m : Nat} {hits : List Hit} (hdiv : 10 ∣ 10 * n / k) (hm : m < k) (hkn : k ≤ 10 * n) :
    (List.range (pieceStart n k (m + 1) / 10)).filter (fun i => total Hit.tot (generated hits i) ≠ 0) =
      (List.range (pieceStart n k m / 10)).filter (fun i => total Hit.tot (generated hits i) ≠ 0) ++
        charged hits (pieceStart n k m) (pieceStart n k (m + 1)) ∧
    ∀ i ∈ charged hits (pieceStart n k m) (pieceStart n k (m + 1)),
      partOf hits (pieceStart n k m) (pieceStart n k (m + 1)) i = generated hits i := by
  have hlt := pieceStart_lt hm hkn
  have hal : ∀ i, pieceStart n k i % 10 = 0 := by
    intro i
    unfold pieceStart
    split_ifs
    · omega
    · exact Nat.mod_eq_zero_of_dvd (hdiv.mul_left i)
  have h1 := hal m
  have h2 := hal (m + 1)
  generalize pieceStart n k m = lo at *
  generalize pieceStart n k (m + 1) = hi at *
  have hpart : ∀ i ∈ touched lo hi, partOf hits lo hi i = generated hits i := by
    intro i hm
    have := mem_touched hm
    unfold partOf generated
    rw [Nat.max_eq_right (by omega), min_eq_right (by omega), show 10 * i + 10 - 10 * i = 10 by omega]
  constructor
  · rw [show hi / 10 = lo / 10 + (hi / 10 - lo / 10) by omega, List.range_add, List.filter_append]
    congr 1
    unfold charged
    have ht : touched lo hi = (List.range (hi / 10 - lo / 10)).map (lo / 10 + ·) := by
      unfold touched
      rw [List.range'_eq_map_range, show (hi + 9) / 10 = hi / 10 by omega]
    rw [← ht]
    exact List.filter_congr fun i hm => by rw [hpart i hm]
  · intro i hm
    exact hpart i (List.mem_of_mem_filter hm)

/-- C95: if the length of the pieces is a multiple of ten, as for the 64 threads of the program, the threads together return
the events of the generated clusters. -/
theorem c95_threads_aligned_partial (solve : List GaussRow → F64 × F64) (cs : List ClusterDraw) (hits : List Hit)
    (hn : cs.length ≤ 200000000) (hc : ∀ c ∈ cs, DrawnCluster c) (h0 : ∀ c, cs.head? = some c → c.time ≠ .fin (-1))
    (h : fakeHits cs = .ok hits) (k : Nat) (hpos : 0 < k) (hk : k ≤ 10 * cs.length) (hdiv : 10 ∣ 10 * cs.length / k) :
    ∃ results : List (List Neutron), singleTest solve hits k = results.map .ok ∧ FoundEvents hits cs.length results.flatten := by
  have g := generated_of hn hc h0 h
  have key : ∀ m ≤ k, ∃ results : List (List Neutron),
      ((List.range m).map fun i => threadTask solve (threadPiece hits k i)) = results.map .ok ∧
      List.Forall₂ (fun i e => IsEventOf 1 (generated hits i) e)
        ((List.range (pieceStart cs.length k m / 10)).filter fun i => total Hit.tot (generated hits i) ≠ 0) results.flatten := by
    intro m
    induction m with
    | zero =>
      intro _
      refine ⟨[], rfl, ?_⟩
      have : pieceStart cs.length k 0 = 0 := by
        unfold pieceStart
        rw [if_neg (by omega), Nat.zero_mul]
      rw [this]
      simp
    | succ m ih =>
      intro hm
      obtain ⟨rs, h1, h2⟩ := ih (by omega)
      obtain ⟨es, e1, e2⟩ := threadTask_of g solve hk (i := m) (by omega)
      obtain ⟨s1, s2⟩ := aligned_step (hits := hits) hdiv (m := m) (by omega) hk
      refine ⟨rs ++ [es], ?_, ?_⟩
      · rw [List.range_succ, List.map_append, h1, List.map_append]
        simp [e1]
      · rw [s1, List.flatten_append, List.flatten_singleton]
        refine List.rel_append h2 ((forall₂_mem_left e2).imp fun i e he => ?_)
        rw [← s2 i he.1]
        exact he.2
  obtain ⟨rs, h1, h2⟩ := key k (Nat.le_refl _)
  refine ⟨rs, h1, ?_⟩
  have : pieceStart cs.length k k / 10 = cs.length := by
    unfold pieceStart
    rw [if_pos rfl]
    omega
  rwa [this] at h2

/-- The program: 12000000 clusters and 64 threads. -/
example : 0 < 64 ∧ 64 ≤ 10 * 12000000 ∧ 10 ∣ 10 * 12000000 / 64 ∧ 12000000 ≤ 200000000 := by decide

/-- C95 does not hold for other numbers of threads: with seven threads the same hits fall into six clusters more. -/
theorem c95_false_threads :
    ((List.range 7).map fun i => (touched (pieceStart 12000000 7 i) (pieceStart 12000000 7 (i + 1))).length).sum = 12000006 := by
  rw [c95_cuts _ _ (by norm_num) (by norm_num)]
  decide

/-- C95 does not hold for more threads than hits: the first thread reads the end of an empty vector. -/
theorem c95_false_many (solve : List GaussRow → F64 × F64) (hits : List Hit) (k : Nat) (hk : hits.length < k) (h1 : 1 < k) :
    (singleTest solve hits k)[0]? = some (.ub .oobRead) := by
  have hp : threadPiece hits k 0 = [] := by
    unfold threadPiece
    rw [if_neg (by omega), Nat.div_eq_of_lt hk]
    simp
  obtain ⟨o', ho, he⟩ := c71_false_empty solve benchAbs
  unfold singleTest
  rw [List.getElem?_map, List.getElem?_range (by omega), Option.map_some, hp]
  simp only [threadTask, bind, Res.bind, ho, he]

/-! ## Draws for which the property is false -/

theorem fakeMembers_any {x y t : Int} (ds : List HitDraw) (hd : ∀ d ∈ ds, DrawnHit d) :
    ∃ hs, fakeMembers x y t ds = .ok hs ∧ hs.length = ds.length ∧ ∀ h ∈ hs, h.spidertime = BitVec.ofInt 64 t := by
  induction ds with
  | nil => exact ⟨[], rfl, rfl, by simp⟩
  | cons d ds ih =>
    obtain ⟨hs, h1, h2, h3⟩ := ih (fun e he => hd e (by simp [he]))
    obtain ⟨d1, d2, d3, d4⟩ := hd d (by simp)
    obtain ⟨w1, e1, -⟩ := drawn_i32 (b := 100) (by simpa using d1) (by norm_num)
    obtain ⟨w2, e2, -⟩ := drawn_i32 (b := 1000) (by simpa using d2) (by norm_num)
    obtain ⟨w3, e3, -⟩ := drawn_i32 (b := 255) (by simpa using d3) (by norm_num)
    obtain ⟨w4, e4, -⟩ := drawn_u32 d4
    have hf : fakeHit x y t d = .ok ⟨x, y, w1, w2, w3, some (BitVec.ofNat 32 w4), BitVec.ofInt 64 t⟩ := by
      unfold fakeHit
      rw [e1, e2, e3, e4]
    refine ⟨⟨x, y, w1, w2, w3, some (BitVec.ofNat 32 w4), BitVec.ofInt 64 t⟩ :: hs, ?_, by simp [h2], ?_⟩
    · simp only [fakeMembers, bind, Res.bind, hf, h1]
    · intro h hh
      rcases List.mem_cons.mp hh with rfl | hh
      · rfl
      · exact h3 h hh

/-- C95 does not hold if the first arrival time is drawn at the lower end, -1: the time becomes 2^64 - 1 and its conversion in
`fit` is undefined in all three programs. -/
theorem c95_false_draw (solve : List GaussRow → F64 × F64) (c : ClusterDraw) (cs : List ClusterDraw)
    (hn : (c :: cs).length ≤ 200000000) (hc : ∀ d ∈ c :: cs, DrawnCluster d) (h : c.time = .fin (-1)) :
    ∃ hits, fakeHits (c :: cs) = .ok hits ∧ hits2events solve hits = .ub .floatToInt ∧
      runSingleTest solve hits = .ub .floatToInt ∧
      ∀ k, 0 < k → k ≤ hits.length → (singleTest solve hits k)[0]? = some (.ub .floatToInt) := by
  have hcc := hc c (by simp)
  obtain ⟨rest, r1, -, -⟩ := fakeFrom_ok (i := 1) (cs := cs) (by rw [List.length_cons] at hn; omega)
    (fun d hd => hc d (by simp [hd])) (by omega)
  obtain ⟨x, ex, -⟩ := fakeInt_ok (i := 0) (a := 0) (b := 2) (by norm_num) (by norm_num) (by norm_num) (by simpa using hcc.x)
  obtain ⟨y, ey, -⟩ := fakeInt_ok (i := 0) (a := 0) (b := 2) (by norm_num) (by norm_num) (by norm_num) (by simpa using hcc.y)
  have et : fakeInt 0 c.time = .ok (-1) := by rw [h]; decide +kernel
  obtain ⟨hs, e1, e2, e3⟩ := fakeMembers_any (x := x) (y := y) (t := -1) c.hits hcc.hits
  have hlen : hs.length = 10 := e2.trans hcc.size
  obtain ⟨f, fs, rfl⟩ : ∃ f fs, hs = f :: fs := by
    cases hs with
    | nil => simp at hlen
    | cons f fs => exact ⟨f, fs, rfl⟩
  have hf : 737869762948382016 < f.spidertime.toNat := by
    rw [e3 f (by simp)]
    decide
  have late : ∀ (n : Nat), 0 < n → ∀ l, benchAbs.fitWith n (f :: l) = .ub .floatToInt := fun n hn l => fitWith_late hn benchAbs f l hf
  refine ⟨f :: fs ++ rest, ?_, ?_, ?_, ?_⟩
  · simp only [fakeHits, fakeFrom, fakeCluster, bind, Res.bind, ex, ey, et, e1, r1]
  · have : benchAbs.fit (f :: fs ++ rest) = .ub .floatToInt := late _ (by decide) _
    simp only [hits2events, bind, Res.bind, this]
  · have : benchAbs.legacyFit (f :: fs ++ rest) = .ub .floatToInt := late _ (by decide) _
    simp only [runSingleTest, bind, Res.bind, this]
  · intro k h0 hk
    have hp : ∃ l, threadPiece (f :: fs ++ rest) k 0 = f :: l := by
      unfold threadPiece
      split_ifs with h1
      · exact ⟨fs ++ rest, by simp⟩
      · have hpos : 0 < (f :: fs ++ rest).length / k := Nat.div_pos hk h0
        obtain ⟨m, hm⟩ : ∃ m, (f :: fs ++ rest).length / k = m + 1 := ⟨_, (Nat.succ_pred_eq_of_pos hpos).symm⟩
        rw [hm]
        simp only [Nat.zero_mul, List.drop_zero]
        exact ⟨(fs ++ rest).take m, rfl⟩
    obtain ⟨l, hl⟩ := hp
    unfold singleTest
    rw [List.getElem?_map, List.getElem?_range h0, Option.map_some, hl]
    have : benchAbs.legacyFit (f :: l) = .ub .floatToInt := late _ (by decide) _
    simp only [threadTask, bind, Res.bind, this]

/-- One cluster, all numbers at the lower end but the arrival time. -/
def zeroDraw : ClusterDraw := ⟨.fin 0, .fin 0, .fin 0, List.replicate 10 ⟨.fin 0, .fin 0, .fin 0, .fin 0⟩⟩

theorem drawn_zero (a b : ℚ) (ha : a ≤ 0) (hb : 0 ≤ b) : Drawn a b (.fin 0) := by
  refine ⟨0, rfl, ?_, ha, hb⟩
  have := fin_zero
  rwa [Int.cast_zero] at this

theorem zeroDraw_drawn : DrawnCluster zeroDraw where
  x := drawn_zero _ _ le_rfl (by norm_num)
  y := drawn_zero _ _ le_rfl (by norm_num)
  time := drawn_zero _ _ (by norm_num) (by norm_num)
  size := rfl
  hits := by
    intro d hd
    rw [(List.mem_replicate.mp hd).2]
    exact ⟨drawn_zero _ _ le_rfl (by norm_num), drawn_zero _ _ le_rfl (by norm_num), drawn_zero _ _ le_rfl (by norm_num),
      drawn_zero _ _ le_rfl (by norm_num)⟩

/-- The hypotheses of `c95_events_partial` are met. -/
example : [zeroDraw] ≠ [] ∧ [zeroDraw].length ≤ 200000000 ∧ (∀ c ∈ [zeroDraw], DrawnCluster c) ∧
    (∀ c, [zeroDraw].head? = some c → c.time ≠ .fin (-1)) ∧ ∃ hits, fakeHits [zeroDraw] = .ok hits := by
  have h1 : ∀ c ∈ [zeroDraw], DrawnCluster c := by
    intro c hc
    rw [List.mem_singleton.mp hc]
    exact zeroDraw_drawn
  have h2 : ∀ c, [zeroDraw].head? = some c → c.time ≠ .fin (-1) := by
    intro c hc
    simp only [List.head?_cons, Option.some.injEq] at hc
    rw [← hc]
    decide
  refine ⟨by simp, by simp, h1, h2, ?_⟩
  obtain ⟨hits, h, -⟩ := c95_hits [zeroDraw] (by simp) h1 h2
  exact ⟨hits, h⟩

/-- C95 does not hold for a cluster of ten hits without charge: the program reports one event less than clusters. -/
theorem c95_false_charge : ∃ hits, fakeHits [zeroDraw] = .ok hits ∧ hits2events (fun _ => (.nan, .nan)) hits = .ok [] ∧
    runSingleTest (fun _ => (.nan, .nan)) hits = .ok [] := by
  refine ⟨List.replicate 10 ⟨0, 0, 0, 0, 0, some 0#32, 0#64⟩, ?_, ?_, ?_⟩ <;> decide +kernel

end Verif.Props
