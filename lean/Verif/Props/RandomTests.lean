import Verif.Spec.RandomTests
import Verif.Props.FakeHits
import Verif.Props.Interleaved
import Verif.Props.DbscanGroups

/-!
# C114: the unit tests with random hits
-/

namespace Verif.Props

open Verif Verif.Spec

/-! ## Generation -/

theorem aroundInt_eq {c : Int} (hc : |c| ≤ 1000) {q : ℚ} {r : ℚ} (h : F64.ofRat (c + q) = .fin r) (hr : (-2000 : ℤ) ≤ r) (hr' : r ≤ (2000 : ℤ)) :
    aroundInt c (.fin q) = .ok (F64.truncQ r) := by
  rw [abs_le] at hc
  obtain ⟨t1, t2⟩ := trunc_between hr hr'
  have hadd : F64.add (F64.ofInt c) (.fin q) = .fin r := by
    rw [F64.ofInt_exact (by rw [abs_le]; omega)]
    exact h
  unfold aroundInt
  rw [hadd]
  simp only [F64.toI32?]
  rw [if_pos (by constructor <;> omega)]

theorem around_ok {c a b : ℤ} (hc : 0 ≤ c ∧ c ≤ 150) (ha : -1 ≤ a) (hb : b ≤ 2) {v : F64} (h : Drawn a b v) :
    ∃ w, aroundInt c v = .ok w ∧ c + a ≤ w ∧ w ≤ c + b := by
  obtain ⟨q, rfl, -, h1, h2⟩ := h
  obtain ⟨r, hr, r1, r2⟩ := small_ofRat (q := (c : ℚ) + q) (A := c + a) (B := c + b)
    (by push_cast; linarith) (by push_cast; linarith) (by omega) (by omega)
  obtain ⟨t1, t2⟩ := trunc_between r1 r2
  refine ⟨F64.truncQ r, aroundInt_eq (by rw [abs_le]; omega) hr (le_trans (by exact_mod_cast (by omega : -2000 ≤ c + a)) r1)
    (le_trans r2 (by exact_mod_cast (by omega : c + b ≤ 2000))), t1, t2⟩

/-- Just below the next pixel. -/
theorem below_next {c : ℤ} {w : Nat} (hc : c = 50 ∨ c = 100 ∨ c = 150) (hw : w = 1 ∨ w = 2) :
    F64.ofRat ((c : ℚ) + (w - 1 / 2 ^ 45)) = .fin ((c : ℚ) + (w - 1 / 2 ^ 45)) := by
  rcases hc with rfl | rfl | rfl <;> rcases hw with rfl | rfl <;> decide +kernel

theorem rndQ_of_ofRat {q r : ℚ} (hq : |q| ≤ 1024) (h : F64.ofRat q = .fin r) : rndQ q = r := by
  have hb : (1024 : ℚ) ≤ 2 ^ (1000 : ℤ) := by
    rw [show (1024 : ℚ) = 2 ^ (10 : ℤ) by norm_num]
    exact zpow_le_zpow_right₀ (by norm_num) (by norm_num)
  rw [F64.ofRat_fin (hq.trans hb), F64.fin.injEq] at h
  exact h

theorem testPlace_ok {c : ℤ} {w : Nat} (hc : c = 50 ∨ c = 100 ∨ c = 150) (hw : w = 1 ∨ w = 2) {v : F64}
    (h : Drawn 0 (w - 1 / 2 ^ 45) v) : ∃ x, aroundInt c v = .ok x ∧ c ≤ x ∧ x < c + w := by
  obtain ⟨q, rfl, -, h1, h2⟩ := h
  have hw2 : (w : ℚ) ≤ 2 := by rcases hw with rfl | rfl <;> norm_num
  have hp : (0 : ℚ) < 1 / 2 ^ 45 := by positivity
  have hc' : 0 ≤ c ∧ c ≤ 150 := by omega
  obtain ⟨r, hr, r1, r2⟩ := small_ofRat (q := (c : ℚ) + q) (A := c) (B := c + 2)
    (by push_cast; linarith) (by push_cast; linarith) (by omega) (by omega)
  have hlt : r < c + w := by
    have h3 := rndQ_mono (show (c : ℚ) + q ≤ c + (w - 1 / 2 ^ 45) by linarith)
    have hcq : (c : ℚ) ≤ 150 := by exact_mod_cast hc'.2
    have hcq' : (0 : ℚ) ≤ c := by exact_mod_cast hc'.1
    have h45 : (1 : ℚ) / 2 ^ 45 ≤ 1 := by norm_num
    have hw0 : (0 : ℚ) ≤ w := by positivity
    have e1 := rndQ_of_ofRat (by rw [abs_le]; constructor <;> linarith) hr
    have e2 := rndQ_of_ofRat (by rw [abs_le]; constructor <;> linarith) (below_next hc hw)
    rw [e1, e2] at h3
    linarith
  obtain ⟨t1, -⟩ := trunc_between r1 r2
  refine ⟨F64.truncQ r, aroundInt_eq (by rw [abs_le]; omega) hr (le_trans (by exact_mod_cast (by omega : -2000 ≤ c)) r1)
    (le_trans r2 (by exact_mod_cast (by omega : c + 2 ≤ 2000))), t1, ?_⟩
  have hr0 : 0 ≤ r := le_trans (by exact_mod_cast hc'.1) r1
  unfold F64.truncQ
  rw [if_pos hr0, Int.floor_lt]
  push_cast
  exact hlt

/-- What is known of a generated hit. -/
structure TestAt (w : Nat) (c t : Int) (h : Hit) : Prop where
  x : c ≤ h.x ∧ h.x < c + w
  y : c ≤ h.y ∧ h.y < c + w
  t : t - 1 ≤ (h.spidertime.toNat : Int) ∧ (h.spidertime.toNat : Int) ≤ t + 1
  tot : 0 ≤ h.tot ∧ h.tot ≤ 100
  toa : 0 ≤ h.toa ∧ h.toa ≤ 1000
  tof : ∃ f, h.tof = some f ∧ f.toNat ≤ 2000

theorem drawn_tot {v : F64} {n : Int} (h : Drawn 0 100 v) (hn : v.toI32? = some n) : n ≠ 0 ↔ ∃ q, v = .fin q ∧ 1 ≤ q := by
  obtain ⟨q, rfl, -, h1, h2⟩ := h
  simp only [F64.toI32?] at hn
  split_ifs at hn
  have hq : F64.truncQ q = n := Option.some.inj hn
  unfold F64.truncQ at hq
  rw [if_pos h1] at hq
  have h0 : 0 ≤ ⌊q⌋ := Int.floor_nonneg.mpr h1
  constructor
  · intro hne
    refine ⟨q, rfl, ?_⟩
    have : (1 : ℤ) ≤ ⌊q⌋ := by omega
    have := Int.le_floor.mp this
    simpa using this
  · rintro ⟨q', he, hq'⟩
    rw [F64.fin.injEq] at he
    subst he
    have : (1 : ℤ) ≤ ⌊q⌋ := Int.le_floor.mpr (by simpa using hq')
    omega

theorem testCluster_ok {w : Nat} {c t : Int} (hc : c = 50 ∨ c = 100 ∨ c = 150) (hw : w = 1 ∨ w = 2) (ht : 10 ≤ t ∧ t ≤ 20)
    (ds : List TestDraw) (hd : ∀ d ∈ ds, DrawnTest w d) :
    ∃ hs, testCluster c t ds = .ok hs ∧ hs.length = ds.length ∧ (∀ h ∈ hs, TestAt w c t h) ∧
      (total Hit.tot hs ≠ 0 ↔ SomeCharge ds) := by
  induction ds with
  | nil => exact ⟨[], rfl, rfl, by simp, by simp [total, SomeCharge]⟩
  | cons d ds ih =>
    obtain ⟨hs, h1, h2, h3, h4⟩ := ih (fun e he => hd e (by simp [he]))
    obtain ⟨dx, dy, dt, d1, d2, d3, d4⟩ := hd d (by simp)
    obtain ⟨x, ex, bx⟩ := testPlace_ok hc hw dx
    obtain ⟨y, ey, bY⟩ := testPlace_ok hc hw dy
    obtain ⟨s, es, bs⟩ := around_ok (c := t) (a := -1) (b := 1) (by omega) (by norm_num) (by norm_num) (by simpa using dt)
    obtain ⟨w1, e1, b1⟩ := drawn_i32 (b := 100) (by simpa using d1) (by norm_num)
    obtain ⟨w2, e2, b2⟩ := drawn_i32 (b := 1000) (by simpa using d2) (by norm_num)
    obtain ⟨w3, e3, b3⟩ := drawn_i32 (b := 255) (by simpa using d3) (by norm_num)
    obtain ⟨w4, e4, b4⟩ := drawn_u32 d4
    have hf : fakeHit x y s d.hit = .ok ⟨x, y, w1, w2, w3, some (BitVec.ofNat 32 w4), BitVec.ofInt 64 s⟩ := by
      unfold fakeHit
      rw [e1, e2, e3, e4]
    refine ⟨⟨x, y, w1, w2, w3, some (BitVec.ofNat 32 w4), BitVec.ofInt 64 s⟩ :: hs, ?_, by simp [h2], ?_, ?_⟩
    · simp only [testCluster, testHit, bind, Res.bind, ex, ey, es, hf, h1]
    · intro h hh
      rcases List.mem_cons.mp hh with rfl | hh
      · refine ⟨bx, bY, ?_, b1, b2, _, rfl, ?_⟩
        · simp only [BitVec.toNat_ofInt]
          omega
        · rw [BitVec.toNat_ofNat]; omega
      · exact h3 h hh
    · have hpos := (total_bounds Hit.tot 100 hs (fun g hg => by have := (h3 g hg).tot; omega)).1
      have hdt := drawn_tot d1 e1
      rw [total_cons]
      show w1 + total Hit.tot hs ≠ 0 ↔ _
      unfold SomeCharge at h4 ⊢
      simp only [List.mem_cons, exists_eq_or_imp]
      rw [← hdt, ← h4]
      omega

theorem testHits_ok {w : Nat} (hw : w = 1 ∨ w = 2) (a b c : List TestDraw) (ha : ∀ d ∈ a, DrawnTest w d)
    (hb : ∀ d ∈ b, DrawnTest w d) (hc : ∀ d ∈ c, DrawnTest w d) :
    ∃ A B C, testHits a b c = .ok (A ++ B ++ C) ∧ A.length = a.length ∧ B.length = b.length ∧ C.length = c.length ∧
      (∀ h ∈ A, TestAt w 50 10 h) ∧ (∀ h ∈ B, TestAt w 100 15 h) ∧ (∀ h ∈ C, TestAt w 150 20 h) ∧
      (total Hit.tot A ≠ 0 ↔ SomeCharge a) ∧ (total Hit.tot B ≠ 0 ↔ SomeCharge b) ∧ (total Hit.tot C ≠ 0 ↔ SomeCharge c) := by
  obtain ⟨A, a1, a2, a3, a4⟩ := testCluster_ok (c := 50) (t := 10) (by simp) hw (by norm_num) a ha
  obtain ⟨B, b1, b2, b3, b4⟩ := testCluster_ok (c := 100) (t := 15) (by simp) hw (by norm_num) b hb
  obtain ⟨C, c1, c2, c3, c4⟩ := testCluster_ok (c := 150) (t := 20) (by simp) hw (by norm_num) c hc
  refine ⟨A, B, C, ?_, a2, b2, c2, a3, b3, c3, a4, b4, c4⟩
  simp only [testHits, bind, Res.bind, a1, b1, c1]

/-! ## Adaptive box search -/

/-- A hit of the neutron `l`, one of the three. -/
structure OfThree (h : Hit) (l : Int) : Prop where
  num : 0 ≤ l ∧ l ≤ 2
  at_ : TestAt 2 (50 + 50 * l) (10 + 5 * l) h

theorem forall₂_replicate {R : Hit → Int → Prop} (A : List Hit) (l : Int) (h : ∀ x ∈ A, R x l) :
    List.Forall₂ R A (List.replicate A.length l) := by
  induction A with
  | nil => exact .nil
  | cons a A ih => exact .cons (h a (by simp)) (ih fun x hx => h x (by simp [hx]))

theorem TestAt.widen {w : Nat} (hw : w = 1 ∨ w = 2) {c t : Int} {h : Hit} (d : TestAt w c t h) : TestAt 2 c t h := by
  obtain ⟨a, b, c', d', e, f⟩ := d
  exact ⟨by omega, by omega, c', d', e, f⟩

theorem forall₂_get {α β : Type} {R : α → β → Prop} {l : List α} {m : List β} (h : List.Forall₂ R l m) (i : Nat)
    (hi : i < l.length) (hi' : i < m.length) : R l[i] m[i] := by
  induction h generalizing i with
  | nil => simp at hi
  | cons hab _ ih =>
    cases i with
    | zero => exact hab
    | succ i => exact ih i (by simpa using hi) (by simpa using hi')

theorem members_of {R : Hit → Int → Prop} {l : List Hit} {m : List Int} (h : List.Forall₂ R l m) (n : Int) :
    (∀ g ∈ members l m n, R g n) ∧ (n ∈ m → members l m n ≠ []) := by
  induction h with
  | nil => simp [members]
  | cons hab _ ih =>
    rename_i a b l m _
    by_cases hb : b = n
    · have he : members (a :: l) (b :: m) n = a :: members l m n := by simp [members, hb]
      rw [he]
      refine ⟨?_, by simp⟩
      intro g hg
      rcases List.mem_cons.mp hg with rfl | hg
      · rw [← hb]; exact hab
      · exact ih.1 g hg
    · have he : members (a :: l) (b :: m) n = members l m n := by simp [members, hb]
      rw [he]
      refine ⟨ih.1, fun hm => ih.2 ?_⟩
      rcases List.mem_cons.mp hm with h | h
      · exact absurd h.symm hb
      · exact h

theorem forall₂_take {α β : Type} {R : α → β → Prop} {l : List α} {m : List β} (h : List.Forall₂ R l m) (i : Nat) :
    List.Forall₂ R (l.take i) (m.take i) := by
  induction h generalizing i with
  | nil => simp
  | cons hab _ ih =>
    cases i with
    | zero => simp
    | succ i => simpa using ⟨hab, ih i⟩

theorem three_coherent {data : List Hit} {ls : List Int} (h : List.Forall₂ OfThree data ls) : Coherent 75 5 3 data ls := by
  intro i hi hi' hmem
  have hget := forall₂_get h i hi hi'
  have htake := forall₂_take h i
  obtain ⟨m1, m2⟩ := members_of htake ls[i]
  have hne := m2 hmem
  obtain ⟨f, rest, hm⟩ := List.exists_cons_of_ne_nil hne
  have hf := m1 f (by rw [hm]; simp)
  refine ⟨⟨?_, ?_⟩, ?_⟩
  · unfold startNs
    rw [hm]
    simp only [List.head?_cons, Option.map_some, Option.getD_some, arrivalNs]
    have := hf.at_.t
    have := hget.at_.t
    rw [abs_le]
    push_cast
    omega
  · have fx := hf.at_.x
    have fy := hf.at_.y
    have gx := hget.at_.x
    have gy := hget.at_.y
    have mem : f ∈ members (data.take i) (ls.take i) ls[i] := by rw [hm]; simp
    push_cast at fx fy gx gy
    have e1 : (f.x : ℚ) ≤ data[i].x + 5 := by exact_mod_cast (by omega : f.x ≤ data[i].x + 5)
    have e2 : (data[i].x : ℚ) ≤ f.x + 5 := by exact_mod_cast (by omega : data[i].x ≤ f.x + 5)
    have e3 : (f.y : ℚ) ≤ data[i].y + 5 := by exact_mod_cast (by omega : f.y ≤ data[i].y + 5)
    have e4 : (data[i].y : ℚ) ≤ f.y + 5 := by exact_mod_cast (by omega : data[i].y ≤ f.y + 5)
    exact ⟨⟨⟨f.x, List.mem_map.mpr ⟨f, mem, rfl⟩, e1⟩, ⟨f.x, List.mem_map.mpr ⟨f, mem, rfl⟩, e2⟩⟩,
      ⟨⟨f.y, List.mem_map.mpr ⟨f, mem, rfl⟩, e3⟩, ⟨f.y, List.mem_map.mpr ⟨f, mem, rfl⟩, e4⟩⟩⟩
  · have hsub : notEarlier (data.take i) (ls.take i) ls[i] ⊆ ({0, 1, 2} : Finset Int).erase ls[i] := by
      intro x hx
      unfold notEarlier at hx
      rw [Finset.mem_filter, List.mem_toFinset] at hx
      obtain ⟨hx1, hx2, -⟩ := hx
      obtain ⟨j, hj, hjx⟩ := List.getElem_of_mem (List.mem_of_mem_take hx1)
      have := (forall₂_get h j (by rw [h.length_eq]; exact hj) hj).num
      rw [hjx] at this
      rw [Finset.mem_erase]
      refine ⟨hx2, ?_⟩
      simp only [Finset.mem_insert, Finset.mem_singleton]
      omega
    have hin : ls[i] ∈ ({0, 1, 2} : Finset Int) := by
      have := hget.num
      simp only [Finset.mem_insert, Finset.mem_singleton]
      omega
    have := Finset.card_le_card hsub
    rw [Finset.card_erase_of_mem hin] at this
    have h3 : ({0, 1, 2} : Finset Int).card = 3 := by decide
    omega

theorem three_apart {data : List Hit} {ls : List Int} (h : List.Forall₂ OfThree data ls) :
    NeutronsApart 75 (5 + 1 / 2 ^ 32) data ls := by
  intro i hi hi' n hn hne
  left
  have hget := forall₂_get h i hi hi'
  obtain ⟨m1, -⟩ := members_of h n
  rintro ⟨⟨⟨p, hp, hp'⟩, ⟨q, hq, hq'⟩⟩, -⟩
  obtain ⟨f, hf, rfl⟩ := List.mem_map.mp hp
  obtain ⟨g, hg, rfl⟩ := List.mem_map.mp hq
  have fx := (m1 f hf).at_.x
  have gx := (m1 g hg).at_.x
  have dx := hget.at_.x
  push_cast at fx gx dx
  have e1 : (f.x : ℚ) < data[i].x + 6 := by
    have : (1 : ℚ) / 2 ^ 32 < 1 := by norm_num
    linarith
  have e2 : (data[i].x : ℚ) < g.x + 6 := by
    have : (1 : ℚ) / 2 ^ 32 < 1 := by norm_num
    linarith
  have e1' : f.x < data[i].x + 6 := by exact_mod_cast e1
  have e2' : data[i].x < g.x + 6 := by exact_mod_cast e2
  omega

theorem three_numbered {a b c : Nat} (ha : 0 < a) (hb : 0 < b) :
    Numbered (List.replicate a (0 : Int) ++ (List.replicate b (1 : Int) ++ List.replicate c (2 : Int))) := by
  intro i hi
  simp only [List.length_append, List.length_replicate] at hi
  by_cases h1 : i < a
  · rw [List.getElem_append_left (by simpa using h1), List.getElem_replicate]
    by_cases h0 : i = 0
    · subst h0; right; simp
    · left
      rw [List.take_append_of_le_length (by simp; omega), List.take_replicate, List.mem_replicate]
      exact ⟨by omega, rfl⟩
  · rw [List.getElem_append_right (by simp; omega)]
    have ht : (List.replicate a (0 : Int) ++ (List.replicate b (1 : Int) ++ List.replicate c (2 : Int))).take i =
        List.replicate a (0 : Int) ++ (List.replicate b (1 : Int) ++ List.replicate c (2 : Int)).take (i - a) := by
      rw [List.take_append, List.take_of_length_le (by simp; omega), List.length_replicate]
    rw [ht]
    simp only [List.length_replicate]
    by_cases h2 : i - a < b
    · rw [List.getElem_append_left (by simpa using h2), List.getElem_replicate]
      rw [List.take_append_of_le_length (by simp; omega), List.take_replicate]
      by_cases h0 : i - a = 0
      · right
        rw [h0]
        simp [List.toFinset_replicate_of_ne_zero (show a ≠ 0 by omega)]
      · left
        rw [List.mem_append, List.mem_replicate, List.mem_replicate]
        exact Or.inr ⟨by omega, rfl⟩
    · rw [List.getElem_append_right (by simp; omega), List.getElem_replicate]
      have ht2 : (List.replicate b (1 : Int) ++ List.replicate c (2 : Int)).take (i - a) =
          List.replicate b (1 : Int) ++ List.replicate (min (i - a - b) c) (2 : Int) := by
        rw [List.take_append, List.take_of_length_le (by simp; omega), List.length_replicate, List.take_replicate]
      rw [ht2]
      by_cases h0 : i - a - b = 0
      · right
        rw [h0]
        simp [List.toFinset_replicate_of_ne_zero (show a ≠ 0 by omega), List.toFinset_replicate_of_ne_zero (show b ≠ 0 by omega)]
      · left
        rw [List.mem_append, List.mem_append, List.mem_replicate, List.mem_replicate, List.mem_replicate]
        exact Or.inr (Or.inr ⟨by omega, rfl⟩)

theorem three_fit {n : Nat} (hn : 3 < n) {A B C : List Hit} (hA : ∀ h ∈ A, TestAt 2 50 10 h) (hB : ∀ h ∈ B, TestAt 2 100 15 h)
    (hC : ∀ h ∈ C, TestAt 2 150 20 h) (neA : A ≠ []) (neB : B ≠ []) :
    ∃ o', benchAbs.fitWith n (A ++ B ++ C) = .ok o' ∧ o'.labels = burstNumbers 0 [A, B, C] := by
  have h : List.Forall₂ OfThree (A ++ B ++ C) (burstNumbers 0 [A, B, C]) := by
    simp only [burstNumbers, List.append_nil, List.append_assoc]
    refine List.rel_append (forall₂_replicate A _ fun x hx => ⟨by decide, hA x hx⟩)
      (List.rel_append (forall₂_replicate B _ fun x hx => ⟨by decide, hB x hx⟩) (forall₂_replicate C _ fun x hx => ⟨by decide, hC x hx⟩))
  have hall : ∀ h ∈ A ++ B ++ C, ∃ c t : Int, (50 ≤ c ∧ c ≤ 150) ∧ (10 ≤ t ∧ t ≤ 20) ∧ TestAt 2 c t h := by
    intro h hh
    simp only [List.mem_append] at hh
    rcases hh with (hh | hh) | hh
    · exact ⟨50, 10, by omega, by omega, hA h hh⟩
    · exact ⟨100, 15, by omega, by omega, hB h hh⟩
    · exact ⟨150, 20, by omega, by omega, hC h hh⟩
  have htime : ∀ h ∈ A ++ B ++ C, h.spidertime.toNat < 2 ^ 48 := by
    intro h hh
    obtain ⟨c, t, -, ht, d⟩ := hall h hh
    have := d.t
    omega
  obtain ⟨o', ho'⟩ := fitWith_returns (by omega : 0 < n) benchAbs (A ++ B ++ C) (fun h hh => by
    have := htime h hh; omega)
  refine ⟨o', ho', ?_⟩
  refine fitWith_interleaved (by omega : 0 < n) benchAbs o' _ ho' 5 benchAbs_feature (by rw [abs_of_pos] <;> norm_num)
    (by rw [benchAbs_range]; norm_num) htime ?_ _ h.length_eq.symm ?_ 3 (Or.inl hn) ?_ ?_
  · intro h hh
    obtain ⟨c, t, hc, -, d⟩ := hall h hh
    have dx := d.x
    have dy := d.y
    rw [abs_le, abs_le]
    push_cast at dx dy
    omega
  · have := three_numbered (c := C.length) (List.length_pos_iff.mpr neA) (List.length_pos_iff.mpr neB)
    simpa [burstNumbers] using this
  · rw [benchAbs_range]; exact three_coherent h
  · rw [benchAbs_range]; exact three_apart h

theorem near_ok {v ref tol : ℚ} (hr : F64.ofRat ref = .fin ref) (ht : F64.ofRat tol = .fin tol) (ht' : F64.ofRat (-tol) = .fin (-tol))
    (hsmall : tol ≤ 1024) (h : |v - ref| ≤ tol) : expectNear (.fin v) ref tol = true := by
  have h0 : 0 ≤ tol := (abs_nonneg _).trans h
  rw [abs_le] at h
  have hb : |v + -ref| ≤ 1024 := by rw [abs_le]; constructor <;> linarith
  have hfin : F64.ofRat (v + -ref) = .fin (rndQ (v + -ref)) := by
    refine F64.ofRat_fin (hb.trans ?_)
    rw [show (1024 : ℚ) = 2 ^ (10 : ℤ) by norm_num]
    exact zpow_le_zpow_right₀ (by norm_num) (by norm_num)
  have r1 := rndQ_mono (show v + -ref ≤ tol by linarith)
  have r2 := rndQ_mono (show -tol ≤ v + -ref by linarith)
  rw [rndQ_of_ofRat (by rw [abs_of_nonneg h0]; exact hsmall) ht] at r1
  rw [rndQ_of_ofRat (by rw [abs_neg, abs_of_nonneg h0]; exact hsmall) ht'] at r2
  unfold expectNear
  rw [hr, ht]
  show F64.le (F64.abs (F64.ofRat (v + -ref))) _ = true
  rw [hfin]
  simp only [F64.abs, F64.le, decide_eq_true_eq, abs_le]
  exact ⟨r2, r1⟩

theorem total_between {f : Hit → Int} {a b : Int} (M : List Hit) (hf : ∀ h ∈ M, a ≤ f h ∧ f h ≤ b) (ht : ∀ h ∈ M, 0 ≤ h.tot) :
    a * total Hit.tot M ≤ total (fun h => f h * h.tot) M ∧ total (fun h => f h * h.tot) M ≤ b * total Hit.tot M := by
  induction M with
  | nil => simp [total]
  | cons h M ih =>
    obtain ⟨i1, i2⟩ := ih (fun g hg => hf g (by simp [hg])) (fun g hg => ht g (by simp [hg]))
    obtain ⟨f1, f2⟩ := hf h (by simp)
    have t0 := ht h (by simp)
    rw [total_cons, total_cons]
    constructor <;> nlinarith

/-- Place of an event, up to rounding. -/
theorem event_place {f : Hit → Int} {a b : Int} (ha : 0 ≤ a) (hb : b ≤ 1000) (M : List Hit) (hf : ∀ h ∈ M, a ≤ f h ∧ f h ≤ b)
    (ht : ∀ h ∈ M, 0 ≤ h.tot) (h0 : total Hit.tot M ≠ 0) {x : F64} (hx : Approx (1 / 2 ^ 51) x ((1 : ℤ) * totMean f M)) :
    ∃ v, x = .fin v ∧ (a : ℚ) - 1 / 4 ≤ v ∧ v ≤ b + 1 / 4 := by
  obtain ⟨v, rfl, hv⟩ := hx
  refine ⟨v, rfl, ?_⟩
  obtain ⟨h1, h2⟩ := total_between M hf ht
  have hnn : 0 ≤ total Hit.tot M := by
    clear h1 h2 h0 hf hv
    induction M with
    | nil => simp [total]
    | cons h M ih =>
      rw [total_cons]
      have := ih (fun g hg => ht g (by simp [hg]))
      have := ht h (by simp)
      omega
  have hpos : (0 : ℚ) < total Hit.tot M := by exact_mod_cast lt_of_le_of_ne hnn (Ne.symm h0)
  have m1 : (a : ℚ) ≤ totMean f M := by
    unfold totMean
    rw [le_div_iff₀ hpos]
    exact_mod_cast h1
  have m2 : totMean f M ≤ b := by
    unfold totMean
    rw [div_le_iff₀ hpos]
    exact_mod_cast h2
  have ha' : (0 : ℚ) ≤ a := by exact_mod_cast ha
  have hb' : (b : ℚ) ≤ 1000 := by exact_mod_cast hb
  have hm0 : (0 : ℚ) ≤ totMean f M := ha'.trans m1
  rw [Int.cast_one, one_mul, abs_of_nonneg hm0] at hv
  have hsm : totMean f M * (1 / 2 ^ 51) ≤ 1 / 4 := by
    have : totMean f M ≤ 1000 := m2.trans hb'
    have h51 : (0 : ℚ) ≤ 1 / 2 ^ 51 := by positivity
    calc totMean f M * (1 / 2 ^ 51) ≤ 1000 * (1 / 2 ^ 51) := mul_le_mul_of_nonneg_right this h51
      _ ≤ 1 / 4 := by norm_num
  rw [abs_le] at hv
  constructor <;> linarith

theorem testAt_decoded {c t : Int} (hc : 50 ≤ c ∧ c ≤ 150) {h : Hit} (d : TestAt 2 c t h) : Decoded h := by
  obtain ⟨x, y, -, t, -, f, hf, hf'⟩ := d
  push_cast at x y
  exact ⟨by omega, by omega, by omega, f, hf, by omega⟩

theorem three_events (solve : List GaussRow → F64 × F64) {n : Nat} (hn : 3 < n) {A B C : List Hit} (hA : ∀ h ∈ A, TestAt 2 50 10 h)
    (hB : ∀ h ∈ B, TestAt 2 100 15 h) (hC : ∀ h ∈ C, TestAt 2 150 20 h) (neA : A ≠ []) (neB : B ≠ []) (neC : C ≠ [])
    (lA : A.length ≤ 2 ^ 31) (lB : B.length ≤ 2 ^ 31) (lC : C.length ≤ 2 ^ 31) :
    ∃ o' es, benchAbs.fitWith n (A ++ B ++ C) = .ok o' ∧ (o'.setMethod "centroid").getEvents solve (A ++ B ++ C) = .ok es ∧
      List.Forall₂ (IsEventOf 1) ([A, B, C].filter fun M => total Hit.tot M ≠ 0) es := by
  obtain ⟨o', ho, hlab⟩ := three_fit hn hA hB hC neA neB
  have hm : o'.setMethod "centroid" = o' := by
    have := (fitWith_inv (by omega : 0 < n) ho).choose_spec.choose_spec.choose_spec.2.2.1
    cases o'
    simp only [AbsObj.setMethod] at *
    rw [this]
    rfl
  have hflat : [A, B, C].flatten = A ++ B ++ C := by simp
  have hmem : ∀ (i : Nat) (hi : i < 3), members (A ++ B ++ C) o'.labels (i : Int) = [A, B, C][i] := by
    intro i hi
    have := members_bursts [A, B, C] 0 i (by simpa using hi)
    rw [hflat, ← hlab, Nat.zero_add] at this
    exact this
  have hrange : ∀ l : Int, l ∈ o'.labels ↔ 0 ≤ l ∧ l < 3 := by
    intro l
    rw [hlab, mem_burstNumbers]
    · simp
    · intro b hb
      simp only [List.mem_cons, List.not_mem_nil, or_false] at hb
      rcases hb with rfl | rfl | rfl <;> assumption
  have hdec : ∀ i (hi : i < 3), CentroidDoes [A, B, C][i] := by
    intro i hi
    have h3 : i = 0 ∨ i = 1 ∨ i = 2 := by omega
    rcases h3 with rfl | rfl | rfl
    · exact centroidDoes_decoded A neA (fun h hh => testAt_decoded (by omega) (hA h hh)) lA
    · exact centroidDoes_decoded B neB (fun h hh => testAt_decoded (by omega) (hB h hh)) lB
    · exact centroidDoes_decoded C neC (fun h hh => testAt_decoded (by omega) (hC h hh)) lC
  obtain ⟨k, es, hk, he, hes⟩ := fitWith_events_of (by omega : 0 < n) solve benchAbs o' _ ho rfl (by
    intro l hl
    obtain ⟨h0, h1⟩ := (hrange l).mp hl
    obtain ⟨l, rfl⟩ := Int.eq_ofNat_of_zero_le h0
    have hl' : l < 3 := by omega
    have e := hmem l hl'
    show CentroidDoes (members _ o'.labels (l : Int))
    rw [e]
    exact hdec l hl')
  refine ⟨o', es, ho, by rw [hm]; exact he, ?_⟩
  have hk3 : k = 3 := by
    have h1 := fun l : Int => (hk l).symm.trans (hrange l)
    have h2 := h1 ((k : Int) - 1)
    have h3 := h1 2
    omega
  subst hk3
  have e0 := hmem 0 (by omega)
  have e1 := hmem 1 (by omega)
  have e2 := hmem 2 (by omega)
  simp only [Nat.cast_zero, Nat.cast_one, Nat.cast_ofNat, List.getElem_cons_zero, List.getElem_cons_succ] at e0 e1 e2
  have key : List.Forall₂ (IsEventOf 1) ((List.range 3).filter (fun (l : Nat) =>
      benchAbs.params.minSize ≤ (members (A ++ B ++ C) o'.labels (l : Int)).length ∧
        total Hit.tot (members (A ++ B ++ C) o'.labels (l : Int)) ≠ 0) |>.map fun (l : Nat) => members (A ++ B ++ C) o'.labels (l : Int)) es := by
    rw [List.forall₂_map_left_iff]
    exact hes
  have hmin : benchAbs.params.minSize = 1 := rfl
  have pA : 1 ≤ A.length := List.length_pos_iff.mpr neA
  have pB : 1 ≤ B.length := List.length_pos_iff.mpr neB
  have pC : 1 ≤ C.length := List.length_pos_iff.mpr neC
  have hlist : ((List.range 3).filter (fun (l : Nat) =>
      benchAbs.params.minSize ≤ (members (A ++ B ++ C) o'.labels (l : Int)).length ∧
        total Hit.tot (members (A ++ B ++ C) o'.labels (l : Int)) ≠ 0) |>.map fun (l : Nat) => members (A ++ B ++ C) o'.labels (l : Int)) =
      [A, B, C].filter fun M => total Hit.tot M ≠ 0 := by
    rw [show List.range 3 = [0, 1, 2] from rfl]
    rw [hmin]
    simp only [List.filter_cons, List.filter_nil, Nat.cast_zero, Nat.cast_one, Nat.cast_ofNat, e0, e1, e2, pA, pB, pC, true_and]
    by_cases hA0 : total Hit.tot A ≠ 0 <;> by_cases hB0 : total Hit.tot B ≠ 0 <;> by_cases hC0 : total Hit.tot C ≠ 0 <;>
      simp [-List.append_assoc, hA0, hB0, hC0, e0, e1, e2]
  rw [hlist] at key
  exact key

theorem near_int {x : F64} {v : ℚ} {ref : Int} {tol : ℚ} (hr : F64.ofRat ref = .fin ref) (ht : F64.ofRat tol = .fin tol)
    (ht' : F64.ofRat (-tol) = .fin (-tol)) (hx : x = .fin v) (hs : tol ≤ 1024) (h1 : (ref : ℚ) - tol ≤ v) (h2 : v ≤ ref + tol) :
    expectNear x ref tol = true := by
  subst hx
  exact near_ok hr ht ht' hs (by rw [abs_le]; constructor <;> linarith)

/-- Three events with charge, or fewer. -/
theorem three_cases {A B C : List Hit} {es : List Neutron}
    (h : List.Forall₂ (IsEventOf 1) ([A, B, C].filter fun M => total Hit.tot M ≠ 0) es) :
    ((total Hit.tot A ≠ 0 ∧ total Hit.tot B ≠ 0 ∧ total Hit.tot C ≠ 0) ∧
      ∃ a b c, es = [a, b, c] ∧ IsEventOf 1 A a ∧ IsEventOf 1 B b ∧ IsEventOf 1 C c) ∨
    (¬ (total Hit.tot A ≠ 0 ∧ total Hit.tot B ≠ 0 ∧ total Hit.tot C ≠ 0) ∧ es[2]? = none) := by
  by_cases hA0 : total Hit.tot A ≠ 0 ∧ total Hit.tot B ≠ 0 ∧ total Hit.tot C ≠ 0
  · left
    obtain ⟨a0, b0, c0⟩ := hA0
    refine ⟨⟨a0, b0, c0⟩, ?_⟩
    simp only [List.filter_cons, List.filter_nil, a0, b0, c0, ne_eq, not_false_eq_true, decide_true, if_true] at h
    cases h with
    | cons h1 h =>
      cases h with
      | cons h2 h =>
        cases h with
        | cons h3 h =>
          cases h
          exact ⟨_, _, _, rfl, h1, h2, h3⟩
  · right
    refine ⟨hA0, ?_⟩
    rw [List.getElem?_eq_none_iff, ← h.length_eq]
    have hlt : ([A, B, C].filter fun M => decide (total Hit.tot M ≠ 0)).length < [A, B, C].length := by
      refine List.length_filter_lt_length_iff_exists.mpr ?_
      by_contra hc
      push Not at hc
      refine hA0 ⟨?_, ?_, ?_⟩
      · simpa using hc A (by simp)
      · simpa using hc B (by simp)
      · simpa using hc C (by simp)
    simp only [List.length_cons, List.length_nil] at hlt
    omega

/-- C114: `ABSTest.FitNeutronEvents` passes if each of the three clusters has some charge; otherwise it reads behind the events. -/
theorem c114_fast_partial (solve : List GaussRow → F64 × F64) (a b c : List TestDraw) (ha : ∀ d ∈ a, DrawnTest 1 d)
    (hb : ∀ d ∈ b, DrawnTest 1 d) (hc : ∀ d ∈ c, DrawnTest 1 d) (la : a.length = 100) (lb : b.length = 100) (lc : c.length = 100) :
    ∃ hits, testHits a b c = .ok hits ∧
      (SomeCharge a ∧ SomeCharge b ∧ SomeCharge c → fastAbsTest solve hits = .ok true) ∧
      (¬ (SomeCharge a ∧ SomeCharge b ∧ SomeCharge c) → fastAbsTest solve hits = .ub .oobRead) := by
  obtain ⟨A, B, C, h1, hla, hlb, hlc, tA, tB, tC, cA, cB, cC⟩ := testHits_ok (Or.inl rfl) a b c ha hb hc
  refine ⟨_, h1, ?_⟩
  have ne : ∀ M : List Hit, M.length = 100 → M ≠ [] := fun M hM h => by rw [h] at hM; simp at hM
  obtain ⟨o', es, ho, he, hes⟩ := three_events solve (n := numClusters) (by decide) (fun h hh => (tA h hh).widen (Or.inl rfl))
    (fun h hh => (tB h hh).widen (Or.inl rfl)) (fun h hh => (tC h hh).widen (Or.inl rfl)) (ne A (by omega)) (ne B (by omega))
    (ne C (by omega)) (by omega) (by omega) (by omega)
  have ho' : benchAbs.fit (A ++ B ++ C) = .ok o' := ho
  rw [← cA, ← cB, ← cC]
  rcases three_cases hes with ⟨⟨a0, b0, c0⟩, ea, eb, ec, rfl, ia, ib, ic⟩ | ⟨hno, hnone⟩
  · refine ⟨fun _ => ?_, fun h => absurd ⟨a0, b0, c0⟩ h⟩
    have pos : ∀ {r t : Int} {M : List Hit} (f : Hit → Int) {x : F64}, (50 ≤ r ∧ r ≤ 150) → F64.ofRat (r : ℚ) = .fin (r : ℚ) →
        (∀ h ∈ M, TestAt 1 r t h) → (∀ h, TestAt 1 r t h → r ≤ f h ∧ f h < r + 1) → total Hit.tot M ≠ 0 →
        Approx (1 / 2 ^ 51) x ((1 : ℤ) * totMean f M) → expectNear x r (1 / 2) = true := by
      intro r t M f x hr hrr hM hf h0 hx
      obtain ⟨v, e, v1, v2⟩ := event_place (a := r) (b := r) (by omega) (by omega) M
        (fun h hh => by have := hf h (hM h hh); omega) (fun h hh => (hM h hh).tot.1) h0 hx
      exact near_int hrr (by decide +kernel) (by decide +kernel) e (by norm_num) (by linarith) (by linarith)
    have px : ∀ r t : Int, ∀ h, TestAt 1 r t h → r ≤ h.x ∧ h.x < r + 1 := fun r t h d => by have := d.x; push_cast at this; exact this
    have py : ∀ r t : Int, ∀ h, TestAt 1 r t h → r ≤ h.y ∧ h.y < r + 1 := fun r t h d => by have := d.y; push_cast at this; exact this
    have r50 : F64.ofRat ((50 : ℤ) : ℚ) = .fin ((50 : ℤ) : ℚ) := F64.ofRat_int (by norm_num)
    have r100 : F64.ofRat ((100 : ℤ) : ℚ) = .fin ((100 : ℤ) : ℚ) := F64.ofRat_int (by norm_num)
    have r150 : F64.ofRat ((150 : ℤ) : ℚ) = .fin ((150 : ℤ) : ℚ) := F64.ofRat_int (by norm_num)
    have n1 := pos Hit.x (by norm_num) r50 tA (px 50 10) a0 ia.x
    have n2 := pos Hit.y (by norm_num) r50 tA (py 50 10) a0 ia.y
    have n3 := pos Hit.x (by norm_num) r100 tB (px 100 15) b0 ib.x
    have n4 := pos Hit.y (by norm_num) r100 tB (py 100 15) b0 ib.y
    have n5 := pos Hit.x (by norm_num) r150 tC (px 150 20) c0 ic.x
    have n6 := pos Hit.y (by norm_num) r150 tC (py 150 20) c0 ic.y
    push_cast at n1 n2 n3 n4 n5 n6
    simp only [fastAbsTest, bind, Res.bind, ho', he, List.getElem?_cons_zero, List.getElem?_cons_succ, n1, n2, n3, n4, n5, n6,
      List.length_cons, List.length_nil]
    rfl
  · refine ⟨fun h => absurd h hno, fun _ => ?_⟩
    simp only [fastAbsTest, bind, Res.bind, ho', he]
    rw [hnone]
    cases es[0]? <;> cases es[1]? <;> rfl

/-- Within a pixel and a quarter of the centre. -/
def AtCentre (r : Int) (x : F64) : Prop := ∃ v : ℚ, x = .fin v ∧ (r : ℚ) - 1 / 4 ≤ v ∧ v ≤ r + 5 / 4

theorem sorted_ok {a b c : F64} (h : (AtCentre 50 a ∧ AtCentre 100 b ∧ AtCentre 150 c) ∨ (AtCentre 50 a ∧ AtCentre 150 b ∧ AtCentre 100 c) ∨
    (AtCentre 100 a ∧ AtCentre 50 b ∧ AtCentre 150 c) ∨ (AtCentre 100 a ∧ AtCentre 150 b ∧ AtCentre 50 c) ∨
    (AtCentre 150 a ∧ AtCentre 50 b ∧ AtCentre 100 c) ∨ (AtCentre 150 a ∧ AtCentre 100 b ∧ AtCentre 50 c)) : sortedNear a b c = true := by
  have n50 : ∀ x, AtCentre 50 x → expectNear x 50 2 = true := by
    rintro x ⟨v, e, h1, h2⟩
    have := near_int (F64.ofRat_int (n := 50) (by norm_num)) (by decide +kernel) (by decide +kernel) (tol := 2) e (by norm_num)
      (by push_cast at *; linarith) (by push_cast at *; linarith)
    exact_mod_cast this
  have n100 : ∀ x, AtCentre 100 x → expectNear x 100 2 = true := by
    rintro x ⟨v, e, h1, h2⟩
    have := near_int (F64.ofRat_int (n := 100) (by norm_num)) (by decide +kernel) (by decide +kernel) (tol := 2) e (by norm_num)
      (by push_cast at *; linarith) (by push_cast at *; linarith)
    exact_mod_cast this
  have n150 : ∀ x, AtCentre 150 x → expectNear x 150 2 = true := by
    rintro x ⟨v, e, h1, h2⟩
    have := near_int (F64.ofRat_int (n := 150) (by norm_num)) (by decide +kernel) (by decide +kernel) (tol := 2) e (by norm_num)
      (by push_cast at *; linarith) (by push_cast at *; linarith)
    exact_mod_cast this
  have lt_t : ∀ {r s : Int} {x y : F64}, AtCentre r x → AtCentre s y → r + 50 ≤ s → F64.lt x y = true := by
    rintro r s x y ⟨v, rfl, h1, h2⟩ ⟨w, rfl, h3, h4⟩ hrs
    have : (r : ℚ) + 50 ≤ s := by exact_mod_cast hrs
    simp only [F64.lt, decide_eq_true_eq]
    linarith
  have lt_f : ∀ {r s : Int} {x y : F64}, AtCentre r x → AtCentre s y → s + 50 ≤ r → F64.lt x y = false := by
    rintro r s x y ⟨v, rfl, h1, h2⟩ ⟨w, rfl, h3, h4⟩ hrs
    have : (s : ℚ) + 50 ≤ r := by exact_mod_cast hrs
    simp only [F64.lt, decide_eq_false_iff_not, not_lt]
    linarith
  unfold sortedNear
  rcases h with ⟨ha, hb, hc⟩ | ⟨ha, hb, hc⟩ | ⟨ha, hb, hc⟩ | ⟨ha, hb, hc⟩ | ⟨ha, hb, hc⟩ | ⟨ha, hb, hc⟩
  · have : sort3 a b c = (a, b, c) := by
      unfold sort3; simp [lt_f hb ha (by norm_num), lt_f hc ha (by norm_num), lt_f hc hb (by norm_num)]
    rw [this]; simp [n50 _ ha, n100 _ hb, n150 _ hc]
  · have : sort3 a b c = (a, c, b) := by
      unfold sort3; simp [lt_f hb ha (by norm_num), lt_f hc ha (by norm_num), lt_t hc hb (by norm_num)]
    rw [this]; simp [n50 _ ha, n100 _ hc, n150 _ hb]
  · have : sort3 a b c = (b, a, c) := by
      unfold sort3; simp [lt_t hb ha (by norm_num), lt_f hc ha (by norm_num), lt_f hc hb (by norm_num)]
    rw [this]; simp [n50 _ hb, n100 _ ha, n150 _ hc]
  · have : sort3 a b c = (c, a, b) := by
      unfold sort3; simp [lt_f hb ha (by norm_num), lt_t hc ha (by norm_num)]
    rw [this]; simp [n50 _ hc, n100 _ ha, n150 _ hb]
  · have : sort3 a b c = (b, c, a) := by
      unfold sort3; simp [lt_t hb ha (by norm_num), lt_t hc ha (by norm_num), lt_f hc hb (by norm_num)]
    rw [this]; simp [n50 _ hb, n100 _ hc, n150 _ ha]
  · have : sort3 a b c = (c, b, a) := by
      unfold sort3; simp [lt_t hb ha (by norm_num), lt_t hc hb (by norm_num)]
    rw [this]; simp [n50 _ hc, n100 _ hb, n150 _ ha]

/-- C114: the same for `Clustering.ABSAlgorithm`. -/
theorem c114_legacy_partial (solve : List GaussRow → F64 × F64) (a b c : List TestDraw) (ha : ∀ d ∈ a, DrawnTest 2 d)
    (hb : ∀ d ∈ b, DrawnTest 2 d) (hc : ∀ d ∈ c, DrawnTest 2 d) (la : a.length = 10) (lb : b.length = 10) (lc : c.length = 10) :
    ∃ hits, testHits a b c = .ok hits ∧
      (SomeCharge a ∧ SomeCharge b ∧ SomeCharge c → legacyAbsTest solve hits = .ok true) ∧
      (¬ (SomeCharge a ∧ SomeCharge b ∧ SomeCharge c) → legacyAbsTest solve hits = .ub .oobRead) := by
  obtain ⟨A, B, C, h1, hla, hlb, hlc, tA, tB, tC, cA, cB, cC⟩ := testHits_ok (Or.inr rfl) a b c ha hb hc
  refine ⟨_, h1, ?_⟩
  have ne : ∀ M : List Hit, M.length = 10 → M ≠ [] := fun M hM h => by rw [h] at hM; simp at hM
  obtain ⟨o', es, ho, he, hes⟩ := three_events solve (n := legacyClusters) (by decide) tA tB tC (ne A (by omega)) (ne B (by omega))
    (ne C (by omega)) (by omega) (by omega) (by omega)
  have ho' : benchAbs.legacyFit (A ++ B ++ C) = .ok o' := ho
  have he' : (o'.setMethod "centroid").legacyEvents solve (A ++ B ++ C) = .ok es := by
    rw [legacyEvents_eq _ _ _ (by simp [ne A (by omega)])]; exact he
  rw [← cA, ← cB, ← cC]
  rcases three_cases hes with ⟨⟨a0, b0, c0⟩, ea, eb, ec, rfl, ia, ib, ic⟩ | ⟨hno, hnone⟩
  · refine ⟨fun _ => ?_, fun h => absurd ⟨a0, b0, c0⟩ h⟩
    have pos : ∀ {r t : Int} {M : List Hit} (f : Hit → Int) {x : F64}, (50 ≤ r ∧ r ≤ 150) →
        (∀ h ∈ M, TestAt 2 r t h) → (∀ h, TestAt 2 r t h → r ≤ f h ∧ f h < r + 2) → total Hit.tot M ≠ 0 →
        Approx (1 / 2 ^ 51) x ((1 : ℤ) * totMean f M) → AtCentre r x := by
      intro r t M f x hr hM hf h0 hx
      obtain ⟨v, e, v1, v2⟩ := event_place (a := r) (b := r + 1) (by omega) (by omega) M
        (fun h hh => by have := hf h (hM h hh); omega) (fun h hh => (hM h hh).tot.1) h0 hx
      push_cast at v2
      exact ⟨v, e, v1, by linarith⟩
    have px : ∀ r t : Int, ∀ h, TestAt 2 r t h → r ≤ h.x ∧ h.x < r + 2 := fun r t h d => by have := d.x; push_cast at this; exact this
    have py : ∀ r t : Int, ∀ h, TestAt 2 r t h → r ≤ h.y ∧ h.y < r + 2 := fun r t h d => by have := d.y; push_cast at this; exact this
    have n1 := sorted_ok (Or.inl ⟨pos Hit.x (by norm_num) tA (px 50 10) a0 ia.x, pos Hit.x (by norm_num) tB (px 100 15) b0 ib.x,
      pos Hit.x (by norm_num) tC (px 150 20) c0 ic.x⟩)
    have n2 := sorted_ok (Or.inl ⟨pos Hit.y (by norm_num) tA (py 50 10) a0 ia.y, pos Hit.y (by norm_num) tB (py 100 15) b0 ib.y,
      pos Hit.y (by norm_num) tC (py 150 20) c0 ic.y⟩)
    simp only [legacyAbsTest, bind, Res.bind, ho', he', List.getElem?_cons_zero, List.getElem?_cons_succ, n1, n2,
      List.length_cons, List.length_nil]
    rfl
  · refine ⟨fun h => absurd h hno, fun _ => ?_⟩
    simp only [legacyAbsTest, bind, Res.bind, ho', he']
    rw [hnone]
    cases es[0]? <;> cases es[1]? <;> rfl

theorem connected_of_noGap {hits : List Hit} (hg : NoGap 320 (hits.map Hit.toa)) {i j : Nat} {g h : Hit} (hi : hits[i]? = some g)
    (hj : hits[j]? = some h) : Connected (hits.map toaNsQ) 8000 i j := by
  have near : ∀ {i j : Nat} {g h : Hit}, hits[i]? = some g → hits[j]? = some h → |g.toa - h.toa| ≤ 320 →
      Near (hits.map toaNsQ) 8000 i j := by
    intro i j g h hi hj hd
    refine ⟨toaNsQ g, toaNsQ h, by simp [hi], by simp [hj], ?_⟩
    have : |(g.toa : ℚ) - h.toa| ≤ 320 := by exact_mod_cast hd
    unfold toaNsQ
    rw [← mul_sub, abs_mul, abs_of_pos (by norm_num : (0 : ℚ) < 25)]
    linarith
  have up : ∀ (n : Nat) {i j : Nat} {g h : Hit}, hits[i]? = some g → hits[j]? = some h → g.toa ≤ h.toa → (h.toa - g.toa).toNat ≤ n →
      Connected (hits.map toaNsQ) 8000 i j := by
    intro n
    induction n with
    | zero =>
      intro i j g h hi hj hle hn
      exact Relation.ReflTransGen.single (near hi hj (by rw [abs_le]; omega))
    | succ n ih =>
      intro i j g h hi hj hle hn
      by_cases hsmall : h.toa - g.toa ≤ 320
      · exact Relation.ReflTransGen.single (near hi hj (by rw [abs_le]; omega))
      rcases hg g.toa (List.mem_map_of_mem (List.mem_of_getElem? hi)) with hmax | ⟨b, hb, b1, b2⟩
      · have := hmax h.toa (List.mem_map_of_mem (List.mem_of_getElem? hj))
        omega
      · obtain ⟨k, hk, rfl⟩ := List.mem_map.mp hb
        obtain ⟨p, hp⟩ := List.getElem?_of_mem hk
        exact (Relation.ReflTransGen.single (near hi hp (by rw [abs_le]; omega))).trans (ih hp hj (by omega) (by omega))
  rcases le_total g.toa h.toa with hle | hle
  · exact up _ hi hj hle le_rfl
  · exact Connected.symm (up _ hj hi hle le_rfl)

theorem noGap_of_connected {hits : List Hit} (hc : ∀ i j : Nat, i < hits.length → j < hits.length → Connected (hits.map toaNsQ) 8000 i j) :
    NoGap 320 (hits.map Hit.toa) := by
  intro a ha
  by_cases hmax : ∀ b ∈ hits.map Hit.toa, b ≤ a
  · exact Or.inl hmax
  right
  push Not at hmax
  obtain ⟨b, hb, hab⟩ := hmax
  by_contra hno
  push Not at hno
  obtain ⟨g, hg, rfl⟩ := List.mem_map.mp ha
  obtain ⟨h, hh, rfl⟩ := List.mem_map.mp hb
  obtain ⟨i, hi⟩ := List.getElem?_of_mem hg
  obtain ⟨j, hj⟩ := List.getElem?_of_mem hh
  have key : ∀ k : Nat, Connected (hits.map toaNsQ) 8000 i k → ∀ q, hits[k]? = some q → q.toa ≤ g.toa := by
    intro k hk
    induction hk with
    | refl => intro q hq; rw [hi] at hq; cases hq; exact le_rfl
    | tail _ hstep ih =>
      intro q hq
      obtain ⟨u, v, hu, hv, huv⟩ := hstep
      rw [List.getElem?_map] at hu hv
      rw [hq] at hv
      simp only [Option.map_some, Option.some.injEq] at hv
      obtain ⟨p, hp, rfl⟩ := Option.map_eq_some_iff.mp hu
      have h1 := ih p hp
      subst hv
      by_contra hlt
      have h2 := hno q.toa (List.mem_map_of_mem (List.mem_of_getElem? hq)) (by omega)
      have h3 : (p.toa : ℚ) + 321 ≤ q.toa := by exact_mod_cast (by omega : p.toa + 321 ≤ q.toa)
      unfold toaNsQ at huv
      rw [abs_le] at huv
      linarith
  have := key j (hc i j (List.getElem?_eq_some_iff.mp hi).1 (List.getElem?_eq_some_iff.mp hj).1) h hj
  omega

/-- Which cluster a hit of the test with ten hits for each cluster belongs to. -/
def groupOf : List Nat := List.replicate 10 0 ++ List.replicate 10 1 ++ List.replicate 10 2

theorem groupOf_at (i g : Nat) : groupOf[i]? = some g ↔ i < 30 ∧ g = i / 10 := by
  by_cases hi : i < 30
  · interval_cases i <;> simp [groupOf, List.replicate, eq_comm]
  · rw [List.getElem?_eq_none (by simp [groupOf]; omega)]
    simp [hi]

/-- The hit number `i` of the test. -/
theorem hit_at {A B C : List Hit} (lA : A.length = 10) (lB : B.length = 10) (lC : C.length = 10) (hA : ∀ h ∈ A, TestAt 2 50 10 h)
    (hB : ∀ h ∈ B, TestAt 2 100 15 h) (hC : ∀ h ∈ C, TestAt 2 150 20 h) {i : Nat} {h : Hit} (hi : (A ++ B ++ C)[i]? = some h) :
    TestAt 2 (50 + 50 * (i / 10 : Nat)) (10 + 5 * (i / 10 : Nat)) h := by
  have hlt := (List.getElem?_eq_some_iff.mp hi).1
  simp only [List.length_append] at hlt
  by_cases h1 : i < 10
  · rw [List.append_assoc, List.getElem?_append_left (by omega)] at hi
    rw [show i / 10 = 0 by omega]
    exact hA h (List.mem_of_getElem? hi)
  · by_cases h2 : i < 20
    · rw [List.getElem?_append_left (by simp; omega), List.getElem?_append_right (by omega)] at hi
      rw [show i / 10 = 1 by omega]
      exact hB h (List.mem_of_getElem? hi)
    · rw [List.getElem?_append_right (by simp; omega)] at hi
      rw [show i / 10 = 2 by omega]
      exact hC h (List.mem_of_getElem? hi)

/-- C114: `Clustering.DBSCANAlgorithm` passes if the times of arrival have no gap of more than 8000 ns; otherwise it reads behind
the events. -/
theorem c114_dbscan_partial (ctx : DbCtx) (near far : ℚ) (hnear : 2 ≤ near) (hfar0 : 0 ≤ far) (hfar : far ≤ 40) (hc : ctx.epsTime = .fin 8000)
    (hm : ctx.minTime = 30) (hsort : SortsByStart ctx.sort) (h1 : Dbscan1D ctx.fit1D 8000) (h2 : Dbscan2D ctx.fit2D near far 10)
    (a b c : List TestDraw) (ha : ∀ d ∈ a, DrawnTest 2 d) (hb : ∀ d ∈ b, DrawnTest 2 d) (hc' : ∀ d ∈ c, DrawnTest 2 d)
    (la : a.length = 10) (lb : b.length = 10) (lc : c.length = 10) :
    ∃ hits, testHits a b c = .ok hits ∧ (NoGap 320 (hits.map Hit.toa) → dbscanTest ctx hits = .ok true) ∧
      (¬ NoGap 320 (hits.map Hit.toa) → dbscanTest ctx hits = .ub .oobRead) := by
  obtain ⟨A, B, C, hh, hla, hlb, hlc, tA, tB, tC, -, -, -⟩ := testHits_ok (Or.inr rfl) a b c ha hb hc'
  refine ⟨_, hh, ?_⟩
  clear hh
  have at_ := fun {i : Nat} {h : Hit} => hit_at (i := i) (h := h) (hla.trans la) (hlb.trans lb) (hlc.trans lc) tA tB tC
  have hlen : (A ++ B ++ C).length = 30 := by simp only [List.length_append]; omega
  generalize A ++ B ++ C = hits at at_ hlen ⊢
  clear hla hlb hlc tA tB tC ha hb hc' la lb lc
  have get : ∀ i, i < 30 → ∃ h, hits[i]? = some h := fun i hi => ⟨hits[i], List.getElem?_eq_getElem (by omega)⟩
  have mem : ∀ h ∈ hits, ∃ i : Nat, i < 30 ∧ TestAt 2 (50 + 50 * (i / 10 : Nat)) (10 + 5 * (i / 10 : Nat)) h := by
    intro h hm
    obtain ⟨i, hi⟩ := List.getElem?_of_mem hm
    exact ⟨i, by have := (List.getElem?_eq_some_iff.mp hi).1; omega, at_ hi⟩
  have hz : ∀ h ∈ hits, 0 ≤ h.toa ∧ h.toa < 16384 := by
    intro h hm
    obtain ⟨i, -, d⟩ := mem h hm
    have := d.toa
    omega
  have h8000 : FiniteDouble 8000 := by
    have := F64.ofRat_int (n := 8000) (by norm_num)
    unfold FiniteDouble; norm_num at this ⊢; exact this
  have hconn_finite : ∀ i, i < 30 → {j | Connected (hits.map toaNsQ) 8000 i j} ⊆ (Finset.range 30 : Set Nat) := by
    intro i hi j hj
    rw [Set.mem_ofPred_eq] at hj
    cases hj with
    | refl => simpa using hi
    | tail _ hs =>
      obtain ⟨u, v, hu, hv, -⟩ := hs
      have := (List.getElem?_eq_some_iff.mp hv).1
      rw [List.length_map] at this
      simp only [Finset.coe_range, Set.mem_Iio]
      omega
  constructor
  · intro hng
    have conn : ∀ i j : Nat, i < 30 → j < 30 → Connected (hits.map toaNsQ) 8000 i j := by
      intro i j hi hj
      obtain ⟨g, hg⟩ := get i hi
      obtain ⟨h, hh⟩ := get j hj
      exact connected_of_noGap hng hg hh
    have hg : Grouped groupOf hits 8000 near far ctx.minTime 10 := by
      refine ⟨by rw [hlen]; rfl, ?_, ?_, by decide, ?_⟩
      · intro i j g hi hj
        rw [groupOf_at] at hi hj
        obtain ⟨hi30, rfl⟩ := hi
        obtain ⟨hj30, hij⟩ := hj
        refine ⟨?_, conn i j hi30 hj30⟩
        obtain ⟨p, hp⟩ := get i hi30
        obtain ⟨q, hq⟩ := get j hj30
        have dp := at_ hp
        have dq := at_ hq
        rw [← hij] at dq
        have := dp.x; have := dp.y; have := dq.x; have := dq.y
        push_cast at *
        refine ⟨place p, place q, by simp [hp], by simp [hq], by linarith, ?_⟩
        have hx : |(p.x : ℚ) - q.x| ≤ 1 := by exact_mod_cast (by rw [abs_le]; omega : |p.x - q.x| ≤ 1)
        have hy : |(p.y : ℚ) - q.y| ≤ 1 := by exact_mod_cast (by rw [abs_le]; omega : |p.y - q.y| ≤ 1)
        have hx2 := sq_le_sq' (abs_le.mp hx).1 (abs_le.mp hx).2
        have hy2 := sq_le_sq' (abs_le.mp hy).1 (abs_le.mp hy).2
        show ((p.x : ℚ) - q.x) ^ 2 + ((p.y : ℚ) - q.y) ^ 2 ≤ near ^ 2
        nlinarith
      · intro i j g g' hi hj hne
        rw [groupOf_at] at hi hj
        obtain ⟨hi30, rfl⟩ := hi
        obtain ⟨hj30, rfl⟩ := hj
        left
        rintro ⟨p', q', hp', hq', -, hd⟩
        rw [List.getElem?_map] at hp' hq'
        obtain ⟨p, hp, rfl⟩ := Option.map_eq_some_iff.mp hp'
        obtain ⟨q, hq, rfl⟩ := Option.map_eq_some_iff.mp hq'
        have dp := at_ hp
        have dq := at_ hq
        have := dp.x; have := dq.x
        push_cast at *
        have hx : (49 : ℤ) ≤ p.x - q.x ∨ (49 : ℤ) ≤ q.x - p.x := by omega
        change ((p.x : ℚ) - q.x) ^ 2 + ((p.y : ℚ) - q.y) ^ 2 ≤ far ^ 2 at hd
        have hy2 := sq_nonneg ((p.y : ℚ) - q.y)
        have hf : far ^ 2 ≤ 1600 := by nlinarith
        rcases hx with hx | hx
        · have : (49 : ℚ) ≤ p.x - q.x := by exact_mod_cast hx
          nlinarith
        · have : (49 : ℚ) ≤ q.x - p.x := by exact_mod_cast hx
          nlinarith
      · intro i hi
        have : {j | Connected (hits.map toaNsQ) 8000 i j} = (Finset.range 30 : Set Nat) := by
          apply Set.Subset.antisymm (hconn_finite i (by omega))
          intro j hj
          exact conn i j (by omega) (by simpa using hj)
        rw [this, Set.ncard_coe_finset, hm]
        simp
    obtain ⟨s, hs, hf⟩ := c113_groups ctx 8000 near far 10 h8000 (by norm_num) hc hsort h1 h2 hits hz (by
      intro h hmm
      obtain ⟨i, hi, d⟩ := mem h hmm
      have := d.x; have := d.y
      push_cast at *
      norm_num
      constructor <;> rw [abs_le] <;> omega) (by omega) groupOf hg
    have hcount : s.events.length = 3 := by rw [hf.count]; decide
    obtain ⟨x, y, z, hes⟩ : ∃ x y z, s.events = [x, y, z] := by
      match hE : s.events, hcount with
      | [x, y, z], _ => exact ⟨x, y, z, rfl⟩
    rw [hes] at hf
    have place_of : ∀ {g : Nat} {ev : NEvent} (f : Hit → Int) {v : F64}, (∀ r t h, TestAt 2 r t h → r ≤ f h ∧ f h < r + 2) →
        g ∈ groupOf → InGroup groupOf hits g f v → AtCentre (50 + 50 * g) v := by
      rintro g ev f v hr - ⟨q, rfl, ⟨i, h, hi, hh, q1⟩, i', h', hi', hh', q2⟩
      rw [groupOf_at] at hi hi'
      have d1 := hr _ _ _ (at_ hh)
      have d2 := hr _ _ _ (at_ hh')
      rw [← hi.2] at d1
      rw [← hi'.2] at d2
      have e1 : (50 + 50 * g : ℚ) ≤ f h := by exact_mod_cast d1.1
      have e2 : (f h' : ℚ) ≤ 50 + 50 * g + 1 := by exact_mod_cast (by omega : f h' ≤ 50 + 50 * (g : Int) + 1)
      refine ⟨q, rfl, ?_, ?_⟩ <;> push_cast <;> linarith
    have px : ∀ r t : Int, ∀ h, TestAt 2 r t h → r ≤ h.x ∧ h.x < r + 2 := fun r t h d => by have := d.x; push_cast at this; exact this
    have py : ∀ r t : Int, ∀ h, TestAt 2 r t h → r ≤ h.y ∧ h.y < r + 2 := fun r t h d => by have := d.y; push_cast at this; exact this
    obtain ⟨gx, gxm, lx, ex⟩ := hf.event 0 x rfl
    obtain ⟨gy, gym, ly, ey⟩ := hf.event 1 y rfl
    obtain ⟨gz, gzm, lz, ez⟩ := hf.event 2 z rfl
    have lt3 : ∀ g ∈ groupOf, g < 3 := by decide
    have ax := lt3 gx gxm
    have ay := lt3 gy gym
    have az := lt3 gz gzm
    have distinct : ∀ (m n : Nat) (g h : Nat), g ∈ groupOf → (∀ i : Nat, s.labels[i]? = some (m : Int) ↔ groupOf[i]? = some g) →
        (∀ i : Nat, s.labels[i]? = some (n : Int) ↔ groupOf[i]? = some h) → m ≠ n → g ≠ h := by
      rintro m n g h hg l1 l2 hmn rfl
      obtain ⟨i, hi⟩ := List.getElem?_of_mem hg
      have a1 := (l1 i).mpr hi
      rw [(l2 i).mpr hi] at a1
      have := Option.some.inj a1
      omega
    have d1 := distinct 0 1 gx gy gxm lx ly (by omega)
    have d2 := distinct 0 2 gx gz gxm lx lz (by omega)
    have d3 := distinct 1 2 gy gz gym ly lz (by omega)
    have qx := place_of (ev := x) Hit.x px gxm ex.x
    have qy := place_of (ev := x) Hit.x px gym ey.x
    have qz := place_of (ev := x) Hit.x px gzm ez.x
    have rx := place_of (ev := x) Hit.y py gxm ex.y
    have ry := place_of (ev := x) Hit.y py gym ey.y
    have rz := place_of (ev := x) Hit.y py gzm ez.y
    have n1 : sortedNear x.x y.x z.x = true := by
      clear rx ry rz
      apply sorted_ok
      interval_cases gx <;> interval_cases gy <;> first | omega | (interval_cases gz <;> first | omega | (norm_num at qx qy qz; simp [qx, qy, qz]))
    have n2 : sortedNear x.y y.y z.y = true := by
      clear qx qy qz
      apply sorted_ok
      interval_cases gx <;> interval_cases gy <;> first | omega | (interval_cases gz <;> first | omega | (norm_num at rx ry rz; simp [rx, ry, rz]))
    have hget : dbGetEvents ctx DbState.init hits = .ok (s.events, s) := by
      unfold dbGetEvents
      rw [if_pos (by rfl), hs]
      rfl
    simp only [dbscanTest, bind, Res.bind, hget]
    rw [hes]
    simp only [List.getElem?_cons_zero, List.getElem?_cons_succ, n1, n2, List.length_cons, List.length_nil]
    rfl
  · intro hgap
    have hne : hits ≠ [] := by rintro rfl; simp at hlen
    obtain ⟨out, o1, hcomp, -⟩ := c60_components ctx 8000 h8000 (by norm_num) hc hsort h1 maxHitChunkSize (by decide) hits hne hz
    have hout : out = [] := by
      by_contra ho
      obtain ⟨o, ho⟩ := List.exists_mem_of_ne_nil _ ho
      have ho' : o.idx ∈ out.map TimeInfo.idx := List.mem_map_of_mem ho
      obtain ⟨i, hi⟩ := List.exists_mem_of_ne_nil _ (hcomp.ne _ ho')
      have hb := hcomp.bound _ ho' i hi
      rw [List.length_map] at hb
      have hsz := (hcomp.all i (by rw [List.length_map]; exact hb)).mp ⟨_, ho', hi⟩
      rw [hm] at hsz
      have heq : {j | Connected (hits.map toaNsQ) 8000 i j} = (Finset.range 30 : Set Nat) := by
        apply Set.eq_of_subset_of_ncard_le (hconn_finite i (by omega))
        rw [Set.ncard_coe_finset]
        simpa using hsz
      refine hgap (noGap_of_connected fun p q hp hq => ?_)
      have hp' : p ∈ {j | Connected (hits.map toaNsQ) 8000 i j} := by rw [heq]; simp; omega
      have hq' : q ∈ {j | Connected (hits.map toaNsQ) 8000 i j} := by rw [heq]; simp; omega
      exact (Connected.symm hp').trans hq'
    subst hout
    have hfit : dbFit ctx DbState.init hits = .ok ⟨resizeLabels hits.length DbState.init.labels, []⟩ := by
      unfold dbFit dbFitWith
      simp only [if_neg hne, o1, Res.bind]
      rfl
    have hget : dbGetEvents ctx DbState.init hits = .ok ([], ⟨resizeLabels hits.length DbState.init.labels, []⟩) := by
      unfold dbGetEvents
      rw [if_pos (by rfl), hfit]
      rfl
    simp only [dbscanTest, bind, Res.bind, hget]
    rfl

/-! ## Draws -/

/-- A hit at the centre, with the given time over threshold and time of arrival. -/
def plainDraw (tot toa : ℚ) : TestDraw := ⟨.fin 0, .fin 0, .fin 0, ⟨.fin tot, .fin toa, .fin 0, .fin 0⟩⟩

theorem plain_drawn {w : Nat} (hw : 1 ≤ w) {tot toa : Int} (h1 : 0 ≤ tot ∧ tot ≤ 100) (h2 : 0 ≤ toa ∧ toa ≤ 1000) :
    DrawnTest w (plainDraw tot toa) := by
  have d : ∀ n : Int, 0 ≤ n → n ≤ 1000 → F64.ofRat (n : ℚ) = .fin (n : ℚ) := fun n a b =>
    F64.ofRat_int (by rw [abs_le]; constructor <;> omega)
  have d0 : F64.ofRat 0 = .fin 0 := by have := d 0 le_rfl (by norm_num); exact_mod_cast this
  have hw' : (1 : ℚ) ≤ w := by exact_mod_cast hw
  have p : (1 : ℚ) / 2 ^ 45 ≤ 1 := by norm_num
  refine ⟨⟨0, rfl, d0, le_rfl, by linarith⟩, ⟨0, rfl, d0, le_rfl, by linarith⟩, ⟨0, rfl, d0, by norm_num, by norm_num⟩,
    ⟨tot, rfl, d tot h1.1 (by omega), by exact_mod_cast h1.1, by exact_mod_cast h1.2⟩,
    ⟨toa, rfl, d toa h2.1 h2.2, by exact_mod_cast h2.1, by exact_mod_cast h2.2⟩, ⟨0, rfl, d0, le_rfl, by norm_num⟩,
    ⟨0, rfl, d0, le_rfl, by norm_num⟩⟩

theorem plain_charge (n : Nat) (hn : 0 < n) (toa : ℚ) : SomeCharge (List.replicate n (plainDraw 10 toa)) :=
  ⟨_, List.mem_replicate.mpr ⟨by omega, rfl⟩, 10, rfl, by norm_num⟩

theorem plain_no_charge (n : Nat) (toa : ℚ) : ¬ SomeCharge (List.replicate n (plainDraw 0 toa)) := by
  rintro ⟨d, hd, q, hq, h1⟩
  rw [(List.mem_replicate.mp hd).2] at hq
  simp only [plainDraw, F64.fin.injEq] at hq
  subst hq
  norm_num at h1

theorem plain_all {w : Nat} (hw : 1 ≤ w) (n : Nat) {tot toa : Int} (h1 : 0 ≤ tot ∧ tot ≤ 100) (h2 : 0 ≤ toa ∧ toa ≤ 1000) :
    ∀ d ∈ List.replicate n (plainDraw tot toa), DrawnTest w d := by
  intro d hd
  rw [(List.mem_replicate.mp hd).2]
  exact plain_drawn hw h1 h2

/-- The test passes for hits with charge. -/
example (solve : List GaussRow → F64 × F64) : ∃ hits, testHits (List.replicate 100 (plainDraw 10 0)) (List.replicate 100 (plainDraw 10 0))
    (List.replicate 100 (plainDraw 10 0)) = .ok hits ∧ fastAbsTest solve hits = .ok true := by
  have h := plain_all (w := 1) le_rfl 100 (tot := 10) (toa := 0) (by norm_num) (by norm_num)
  push_cast at h
  obtain ⟨hits, h1, h2, -⟩ := c114_fast_partial solve _ _ _ h h h (by simp) (by simp) (by simp)
  exact ⟨hits, h1, h2 ⟨plain_charge 100 (by norm_num) 0, plain_charge 100 (by norm_num) 0, plain_charge 100 (by norm_num) 0⟩⟩

/-- C114: false in general: if the hits of one cluster all have a time over threshold below one, both tests of `ABS` read behind the
events. -/
theorem c114_false_charge (solve : List GaussRow → F64 × F64) :
    (∃ a b c hits, (∀ d ∈ a ++ b ++ c, DrawnTest 1 d) ∧ a.length = 100 ∧ b.length = 100 ∧ c.length = 100 ∧
      testHits a b c = .ok hits ∧ fastAbsTest solve hits = .ub .oobRead) ∧
    ∃ a b c hits, (∀ d ∈ a ++ b ++ c, DrawnTest 2 d) ∧ a.length = 10 ∧ b.length = 10 ∧ c.length = 10 ∧
      testHits a b c = .ok hits ∧ legacyAbsTest solve hits = .ub .oobRead := by
  constructor
  · have h := plain_all (w := 1) le_rfl 100 (tot := 10) (toa := 0) (by norm_num) (by norm_num)
    have h' := plain_all (w := 1) le_rfl 100 (tot := 0) (toa := 0) (by norm_num) (by norm_num)
    push_cast at h h'
    obtain ⟨hits, h1, -, h2⟩ := c114_fast_partial solve _ _ _ h h' h (by simp) (by simp) (by simp)
    refine ⟨_, _, _, hits, ?_, by simp, by simp, by simp, h1, h2 fun hc => plain_no_charge 100 0 hc.2.1⟩
    intro d hd
    simp only [List.mem_append] at hd
    rcases hd with (hd | hd) | hd
    · exact h d hd
    · exact h' d hd
    · exact h d hd
  · have h := plain_all (w := 2) (by norm_num) 10 (tot := 10) (toa := 0) (by norm_num) (by norm_num)
    have h' := plain_all (w := 2) (by norm_num) 10 (tot := 0) (toa := 0) (by norm_num) (by norm_num)
    push_cast at h h'
    obtain ⟨hits, h1, -, h2⟩ := c114_legacy_partial solve _ _ _ h h' h (by simp) (by simp) (by simp)
    refine ⟨_, _, _, hits, ?_, by simp, by simp, by simp, h1, h2 fun hc => plain_no_charge 10 0 hc.2.1⟩
    intro d hd
    simp only [List.mem_append] at hd
    rcases hd with (hd | hd) | hd
    · exact h d hd
    · exact h' d hd
    · exact h d hd

/-- The object of the test, with a clustering by connected components. -/
noncomputable def testCtx : DbCtx := ⟨.fin 8000, 30, eqFit, compFit 4, sortByStart⟩

/-- C114: if one of the clusters arrives 1000 ticks after the two others, the test of DBSCAN reads behind the events. -/
theorem c114_false_gap : ∃ a b c hits, (∀ d ∈ a ++ b ++ c, DrawnTest 2 d) ∧ a.length = 10 ∧ b.length = 10 ∧ c.length = 10 ∧
    (SomeCharge a ∧ SomeCharge b ∧ SomeCharge c) ∧ testHits a b c = .ok hits ∧ dbscanTest testCtx hits = .ub .oobRead := by
  have h := plain_all (w := 2) (by norm_num) 10 (tot := 10) (toa := 0) (by norm_num) (by norm_num)
  have h' := plain_all (w := 2) (by norm_num) 10 (tot := 10) (toa := 1000) (by norm_num) (by norm_num)
  push_cast at h h'
  obtain ⟨hits, h1, -, h2⟩ := c114_dbscan_partial testCtx 4 4 (by norm_num) (by norm_num) (by norm_num) rfl rfl sortByStart_sorts
    (eqFit_dbscan (by norm_num)) (compFit_dbscan (by norm_num) 10) _ _ _ h h h' (by simp) (by simp) (by simp)
  refine ⟨_, _, _, hits, ?_, by simp, by simp, by simp,
    ⟨plain_charge 10 (by norm_num) 0, plain_charge 10 (by norm_num) 0, plain_charge 10 (by norm_num) 1000⟩, h1, h2 ?_⟩
  · intro d hd
    simp only [List.mem_append] at hd
    rcases hd with (hd | hd) | hd
    · exact h d hd
    · exact h d hd
    · exact h' d hd
  · have hd : (testHits (List.replicate 10 (plainDraw 10 0)) (List.replicate 10 (plainDraw 10 0)) (List.replicate 10 (plainDraw 10 1000))) =
        .ok (List.replicate 10 ⟨50, 50, 10, 0, 0, some 0, 10⟩ ++ List.replicate 10 ⟨100, 100, 10, 0, 0, some 0, 15⟩ ++
          List.replicate 10 ⟨150, 150, 10, 1000, 0, some 0, 20⟩) := by decide +kernel
    replace h1 := Res.ok.inj (hd.symm.trans h1)
    subst h1
    intro hn
    have := hn 0 (by decide)
    simp [List.replicate] at this

/-- The test of DBSCAN passes if all hits arrive at one time. -/
example : ∃ hits, testHits (List.replicate 10 (plainDraw 10 0)) (List.replicate 10 (plainDraw 10 0)) (List.replicate 10 (plainDraw 10 0)) =
    .ok hits ∧ dbscanTest testCtx hits = .ok true := by
  have h := plain_all (w := 2) (by norm_num) 10 (tot := 10) (toa := 0) (by norm_num) (by norm_num)
  push_cast at h
  obtain ⟨hits, h1, h2, -⟩ := c114_dbscan_partial testCtx 4 4 (by norm_num) (by norm_num) (by norm_num) rfl rfl sortByStart_sorts
    (eqFit_dbscan (by norm_num)) (compFit_dbscan (by norm_num) 10) _ _ _ h h h (by simp) (by simp) (by simp)
  refine ⟨hits, h1, h2 ?_⟩
  have hd : (testHits (List.replicate 10 (plainDraw 10 0)) (List.replicate 10 (plainDraw 10 0)) (List.replicate 10 (plainDraw 10 0))) =
      .ok (List.replicate 10 ⟨50, 50, 10, 0, 0, some 0, 10⟩ ++ List.replicate 10 ⟨100, 100, 10, 0, 0, some 0, 15⟩ ++
        List.replicate 10 ⟨150, 150, 10, 0, 0, some 0, 20⟩) := by decide +kernel
  replace h1 := Res.ok.inj (hd.symm.trans h1)
  subst h1
  intro a _
  left
  simp [List.replicate] at *
  omega

/-- All places are drawn at the greatest double below one. -/
def edgeDraw : TestDraw := ⟨.fin (1 - 1 / 2 ^ 53), .fin 0, .fin 0, ⟨.fin 10, .fin 0, .fin 0, .fin 0⟩⟩

/-- C114: draws below one may be rounded up to the next pixel; the test of the fast library then fails. -/
theorem c114_false_edge : Drawn 0 1 edgeDraw.x ∧ edgeDraw.x ≠ .fin 1 ∧ ∃ hits,
    testHits (List.replicate 100 edgeDraw) (List.replicate 100 edgeDraw) (List.replicate 100 edgeDraw) = .ok hits ∧
      fastAbsTest (fun _ => (.nan, .nan)) hits = .ok false := by
  refine ⟨⟨1 - 1 / 2 ^ 53, rfl, by decide +kernel, by norm_num, by norm_num⟩, by decide +kernel, ?_⟩
  have hd : testHits (List.replicate 100 edgeDraw) (List.replicate 100 edgeDraw) (List.replicate 100 edgeDraw) =
      .ok (List.replicate 100 ⟨51, 50, 10, 0, 0, some 0, 10⟩ ++ List.replicate 100 ⟨101, 100, 10, 0, 0, some 0, 15⟩ ++
        List.replicate 100 ⟨151, 150, 10, 0, 0, some 0, 20⟩) := by decide +kernel
  exact ⟨_, hd, by decide +kernel⟩

end Verif.Props
