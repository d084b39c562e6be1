import Verif.Props.Dbscan

/-!
# Time clusters of `DBSCAN::fit` (C60)
-/

namespace Verif.Props

open Verif Verif.Spec

/-- The counters of the hits, as times. -/
def nsOf (z : List ℤ) : List ℚ := z.map fun t : ℤ => 25 * (t : ℚ)

theorem nsOf_get {z : List ℤ} {i : Nat} {t : ℚ} : (nsOf z)[i]? = some t ↔ ∃ n, z[i]? = some n ∧ t = 25 * (n : ℚ) := by
  simp only [nsOf, List.getElem?_map, Option.map_eq_some_iff]
  constructor <;> rintro ⟨n, h1, h2⟩ <;> exact ⟨n, h1, h2.symm⟩

/-- Sum of the counters of some hits. -/
def sumAt (z : List ℤ) (idx : List Nat) : ℤ := (idx.map fun i => z.getD i 0).sum

/-- All counters are 14-bit numbers. -/
def Counters (z : List ℤ) : Prop := ∀ t ∈ z, 0 ≤ t ∧ t < 16384

theorem Counters.getD {z : List ℤ} (h : Counters z) (i : Nat) : 0 ≤ z.getD i 0 ∧ z.getD i 0 < 16384 := by
  rw [List.getD_eq_getElem?_getD]
  match hi : z[i]? with
  | none => simp
  | some t => exact h t (List.mem_of_getElem? hi)

theorem sumAt_bounds {z : List ℤ} (h : Counters z) (idx : List Nat) :
    0 ≤ sumAt z idx ∧ sumAt z idx ≤ 16384 * idx.length := by
  induction idx with
  | nil => simp [sumAt]
  | cons i idx ih =>
    have := h.getD i
    simp only [sumAt, List.map_cons, List.sum_cons, List.length_cons] at ih ⊢
    push_cast
    omega

theorem sumAt_append (z : List ℤ) (a b : List Nat) : sumAt z (a ++ b) = sumAt z a + sumAt z b := by
  simp [sumAt]

/-- The sum is exact as long as there are at most 2^34 hits. -/
def SumOk (z : List ℤ) (c : TimeInfo) : Prop := c.idx.length ≤ 2 ^ 34 → c.sum = .fin ((25 * sumAt z c.idx : ℤ) : ℚ)

theorem add_exact {z : List ℤ} (hz : Counters z) {a b : List Nat} (h : (a ++ b).length ≤ 2 ^ 34) :
    F64.add (.fin ((25 * sumAt z a : ℤ) : ℚ)) (.fin ((25 * sumAt z b : ℤ) : ℚ)) =
      .fin ((25 * sumAt z (a ++ b) : ℤ) : ℚ) := by
  have h1 := sumAt_bounds hz (a ++ b)
  rw [sumAt_append] at h1 ⊢
  generalize sumAt z a = x at *
  generalize sumAt z b = y at *
  generalize (a ++ b).length = n at *
  show F64.ofRat (_ + _) = _
  have he : ((25 * x : ℤ) : ℚ) + ((25 * y : ℤ) : ℚ) = ((25 * (x + y) : ℤ) : ℚ) := by push_cast; ring
  rw [he, F64.ofRat_int]
  rw [abs_le]
  constructor <;> omega

/-- The interval of a cluster fits its points. -/
structure Span (z : List ℤ) (c : TimeInfo) : Prop where
  fin : FiniteSpan c
  lo : ∃ i ∈ c.idx, ∃ n, z[i]? = some n ∧ c.tmin = .fin (25 * (n : ℚ))
  hi : ∃ i ∈ c.idx, ∃ n, z[i]? = some n ∧ (c.tmax = .fin (25 * (n : ℚ)) ∨ n = 0 ∧ c.tmax = dblMin)
  within : ∀ i ∈ c.idx, ∃ n, z[i]? = some n ∧ val c.tmin ≤ 25 * (n : ℚ) ∧ 25 * (n : ℚ) ≤ val c.tmax

/-- A cluster being filled. -/
structure Part (z : List ℤ) (c : TimeInfo) : Prop where
  fresh : c.idx = [] → c.tmin = dblMax ∧ c.tmax = dblMin
  span : c.idx ≠ [] → Span z c
  sum : SumOk z c

theorem counter_lt_dblMax {n : ℤ} (h : n < 16384) : F64.lt (.fin (25 * (n : ℚ))) dblMax = true := by
  have h1 : (2 : ℚ) ^ (1023 : ℤ) ≤ (2 - 2 ^ (-52 : ℤ)) * 2 ^ (1023 : ℤ) := by
    have h2 : (2 : ℚ) ^ (-52 : ℤ) ≤ 1 := zpow_le_one_of_nonpos₀ (by norm_num) (by norm_num)
    have h3 := two_zpow_pos 1023
    generalize (2 : ℚ) ^ (1023 : ℤ) = a at *
    generalize (2 : ℚ) ^ (-52 : ℤ) = b at *
    nlinarith
  have h4 : (2 : ℚ) ^ (20 : ℤ) ≤ (2 : ℚ) ^ (1023 : ℤ) := zpow_le_zpow_right₀ (by norm_num) (by norm_num)
  have h5 : (2 : ℚ) ^ (20 : ℤ) = 1048576 := by norm_num
  have h6 : (25 * (n : ℚ)) < 1048576 := by
    have : (n : ℚ) < 16384 := by exact_mod_cast h
    linarith
  simp only [dblMax, F64.lt, decide_eq_true_eq]
  exact lt_of_lt_of_le h6 (h5 ▸ h4.trans h1)

theorem dblMin_bounds : (0 : ℚ) < 2 ^ (-1022 : ℤ) ∧ (2 : ℚ) ^ (-1022 : ℤ) < 25 := by
  refine ⟨two_zpow_pos _, ?_⟩
  have : (2 : ℚ) ^ (-1022 : ℤ) ≤ 1 := zpow_le_one_of_nonpos₀ (by norm_num) (by norm_num)
  linarith

/-- Adding a point to a cluster being filled. -/
theorem Part.add {z : List ℤ} (hz : Counters z) {c : TimeInfo} (h : Part z c) {i : Nat} {n : ℤ} (hi : z[i]? = some n) :
    Part z (c.addPoint (.fin (25 * (n : ℚ))) i) := by
  have hn := hz n (List.mem_of_getElem? hi)
  have hd := dblMin_bounds
  refine ⟨fun h => by simp [TimeInfo.addPoint] at h, fun _ => ?_, ?_⟩
  · by_cases he : c.idx = []
    · obtain ⟨e1, e2⟩ := h.fresh he
      have hmin : (c.addPoint (.fin (25 * (n : ℚ))) i).tmin = .fin (25 * (n : ℚ)) := by
        simp only [TimeInfo.addPoint, e1, stdMin, counter_lt_dblMax hn.2, if_true]
      have hidx : (c.addPoint (.fin (25 * (n : ℚ))) i).idx = [i] := by simp [TimeInfo.addPoint, he]
      have hmax : (c.addPoint (.fin (25 * (n : ℚ))) i).tmax = .fin (25 * (n : ℚ)) ∧ 0 < n ∨
          n = 0 ∧ (c.addPoint (.fin (25 * (n : ℚ))) i).tmax = dblMin := by
        simp only [TimeInfo.addPoint, e2, stdMax]
        rcases hn.1.eq_or_lt with h0 | h0
        · right
          refine ⟨h0.symm, ?_⟩
          rw [if_neg]
          subst h0
          simp only [dblMin, F64.lt, decide_eq_true_eq, not_lt]
          simp
        · left
          refine ⟨?_, h0⟩
          rw [if_pos]
          simp only [dblMin, F64.lt, decide_eq_true_eq]
          have : (1 : ℚ) ≤ n := by exact_mod_cast h0
          linarith [hd.2]
      refine ⟨⟨by rw [hmin]; rfl, ?_⟩, ⟨i, by simp [hidx], n, hi, hmin⟩, ⟨i, by simp [hidx], n, hi, ?_⟩, ?_⟩
      · rcases hmax with ⟨e, _⟩ | ⟨_, e⟩ <;> rw [e] <;> rfl
      · rcases hmax with ⟨e, _⟩ | e
        · exact Or.inl e
        · exact Or.inr e
      · intro j hj
        rw [hidx] at hj
        rw [List.mem_singleton.mp hj]
        refine ⟨n, hi, by rw [hmin]; exact le_refl _, ?_⟩
        rcases hmax with ⟨e, _⟩ | ⟨e0, e⟩
        · rw [e]; exact le_refl _
        · rw [e, e0]
          simp [dblMin, val]
    · have hs := h.span he
      have h1 := stdMin_fin hs.fin.1 (show (F64.fin (25 * (n : ℚ))).isFinite = true from rfl)
      have h2 := stdMax_fin hs.fin.2 (show (F64.fin (25 * (n : ℚ))).isFinite = true from rfl)
      have hidx : (c.addPoint (.fin (25 * (n : ℚ))) i).idx = c.idx ++ [i] := rfl
      refine ⟨⟨?_, ?_⟩, ?_, ?_, ?_⟩
      · rcases h1.1 with e | e
        · exact (congrArg F64.isFinite e).trans hs.fin.1
        · exact congrArg F64.isFinite e
      · rcases h2.1 with e | e
        · exact (congrArg F64.isFinite e).trans hs.fin.2
        · exact congrArg F64.isFinite e
      · rcases h1.1 with e | e
        · obtain ⟨j, hj, m, hm, em⟩ := hs.lo
          exact ⟨j, by simp [hidx, hj], m, hm, e.trans em⟩
        · exact ⟨i, by simp [hidx], n, hi, e⟩
      · rcases h2.1 with e | e
        · obtain ⟨j, hj, m, hm, em⟩ := hs.hi
          refine ⟨j, by simp [hidx, hj], m, hm, ?_⟩
          rcases em with em | ⟨e0, em⟩
          · exact Or.inl (e.trans em)
          · exact Or.inr ⟨e0, e.trans em⟩
        · exact ⟨i, by simp [hidx], n, hi, Or.inl e⟩
      · intro j hj
        rw [hidx] at hj
        rcases List.mem_append.mp hj with hj | hj
        · obtain ⟨m, hm, l1, l2⟩ := hs.within j hj
          exact ⟨m, hm, h1.2.1.trans l1, l2.trans h2.2.1⟩
        · rw [List.mem_singleton.mp hj]
          exact ⟨n, hi, h1.2.2, h2.2.2⟩
  · intro hl
    have hl' : (c.idx ++ [i]).length ≤ 2 ^ 34 := hl
    show F64.add c.sum _ = .fin ((25 * sumAt z (c.idx ++ [i]) : ℤ) : ℚ)
    rw [h.sum (by simp at hl'; omega), ← add_exact hz hl']
    congr 2
    simp [sumAt, List.getD_eq_getElem?_getD, hi]

theorem single_part {z : List ℤ} {i : Nat} {n : ℤ} (hi : z[i]? = some n) :
    Span z (TimeInfo.single (.fin (25 * (n : ℚ))) i) ∧ SumOk z (TimeInfo.single (.fin (25 * (n : ℚ))) i) := by
  refine ⟨⟨⟨rfl, rfl⟩, ⟨i, by simp [TimeInfo.single], n, hi, rfl⟩, ⟨i, by simp [TimeInfo.single], n, hi, Or.inl rfl⟩, ?_⟩, ?_⟩
  · intro j hj
    rw [show j = i by simpa [TimeInfo.single] using hj]
    exact ⟨n, hi, le_refl _, le_refl _⟩
  · intro _
    simp [TimeInfo.single, sumAt, List.getD_eq_getElem?_getD, hi]

theorem flatMap_modify_perm (l : List TimeInfo) (t : F64) (i : Nat) : ∀ j, j < l.length →
    ((l.modify j (TimeInfo.addPoint t i)).flatMap TimeInfo.idx).Perm (l.flatMap TimeInfo.idx ++ [i]) := by
  induction l with
  | nil => intro j h; simp at h
  | cons c l ih =>
    intro j h
    cases j with
    | zero =>
      simp only [List.modify_zero_cons, List.flatMap_cons, TimeInfo.addPoint, List.append_assoc]
      exact List.Perm.append_left _ List.perm_append_comm
    | succ j =>
      simp only [List.modify_succ_cons, List.flatMap_cons, List.append_assoc]
      exact (ih j (by simpa using h)).append_left _

/-- A cluster all of whose points carry the label `j`. -/
def Labelled (labels : List Nat) (off j : Nat) (c : TimeInfo) : Prop :=
  ∀ i ∈ c.idx, off ≤ i ∧ labels[i - off]? = some j

theorem isNoise_iff {k l : Nat} (hk : k < sizeMax) (h : l = sizeMax ∨ l < k) : isNoise k l = true ↔ l = sizeMax := by
  unfold isNoise
  rw [Bool.or_eq_true, beq_iff_eq, decide_eq_true_eq]
  constructor
  · rintro (h1 | h1)
    · exact h1
    · rcases h with h | h
      · exact h
      · rw [if_neg (by omega)] at h1; omega
  · exact Or.inl

/-- The loop over the labels. -/
theorem assign_ok {z : List ℤ} (hz : Counters z) {k off : Nat} (hk : k < sizeMax) {chunk : List F64} {labels : List Nat}
    (hl : labels.length = chunk.length) (hr : ∀ l ∈ labels, l = sizeMax ∨ l < k)
    (hch : ∀ ii t, chunk[ii]? = some t → ∃ n, z[ii + off]? = some n ∧ t = .fin (25 * (n : ℚ))) :
    ∀ (ls : List Nat) (ii : Nat) (infos rest : List TimeInfo), labels.drop ii = ls → infos.length = k →
      (∀ j c, infos[j]? = some c → Part z c ∧ Labelled labels off j c ∧ (c.idx ≠ [] ∨ j ∈ ls)) →
      (∀ c ∈ rest, Span z c ∧ SumOk z c ∧ ∃ i, c.idx = [i]) →
      ∃ A B, assignPoints k chunk off ls ii infos rest = .ok (A ++ B) ∧
        ((A ++ B).flatMap TimeInfo.idx).Perm
          ((infos ++ rest).flatMap TimeInfo.idx ++ List.range' (ii + off) ls.length) ∧
        (∀ j c, A[j]? = some c → c.idx ≠ [] ∧ Span z c ∧ SumOk z c ∧ j < k ∧ Labelled labels off j c) ∧
        (∀ c ∈ B, Span z c ∧ SumOk z c ∧ ∃ i, c.idx = [i])
  | [], ii, infos, rest, _, hlen, hI, hR => by
    refine ⟨infos, rest, rfl, by simp, ?_, hR⟩
    intro j c hc
    obtain ⟨h1, h2, h3⟩ := hI j c hc
    have h4 : c.idx ≠ [] := by simpa using h3
    have h5 := (List.getElem?_eq_some_iff.mp hc).1
    exact ⟨h4, h1.span h4, h1.sum, by omega, h2⟩
  | l :: ls, ii, infos, rest, hd, hlen, hI, hR => by
    have hlab : labels[ii]? = some l := by
      have := congrArg (·[0]?) hd
      simpa using this
    have hii : ii < chunk.length := hl ▸ (List.getElem?_eq_some_iff.mp hlab).1
    have hd' : labels.drop (ii + 1) = ls := by
      rw [← List.tail_drop, hd]; rfl
    have hlr := hr l (List.mem_of_getElem? hlab)
    obtain ⟨n, hn, ht⟩ := hch ii chunk[ii] (List.getElem?_eq_getElem hii)
    unfold assignPoints
    rw [List.getElem?_eq_getElem hii]
    simp only [ht]
    have hrange : List.range' (ii + off) (l :: ls).length = (ii + off) :: List.range' (ii + 1 + off) ls.length := by
      rw [List.length_cons, List.range'_succ]
      congr 2
      omega
    by_cases hno : isNoise k l = true
    · rw [if_pos hno]
      have hls := (isNoise_iff hk hlr).mp hno
      obtain ⟨A, B, h1, h2, h3, h4⟩ := assign_ok hz hk hl hr hch ls (ii + 1) infos
        (rest ++ [TimeInfo.single (.fin (25 * (n : ℚ))) (ii + off)]) hd' hlen
        (fun j c hc => by
          obtain ⟨p1, p2, p3⟩ := hI j c hc
          refine ⟨p1, p2, p3.imp_right fun h => ?_⟩
          rcases List.mem_cons.mp h with h | h
          · have := (List.getElem?_eq_some_iff.mp hc).1
            omega
          · exact h)
        (fun c hc => by
          rcases List.mem_append.mp hc with hc | hc
          · exact hR c hc
          · rw [List.mem_singleton.mp hc]
            exact ⟨(single_part hn).1, (single_part hn).2, _, rfl⟩)
      refine ⟨A, B, h1, h2.trans ?_, h3, h4⟩
      rw [hrange]
      simp only [List.flatMap_append, List.flatMap_cons, List.flatMap_nil, List.append_assoc, TimeInfo.single,
        List.append_nil, List.cons_append, List.nil_append]
      exact List.Perm.refl _
    · rw [if_neg hno]
      have hlk : l < k := by
        rcases id hlr with h | h
        · exact absurd ((isNoise_iff hk hlr).mpr h) hno
        · exact h
      rw [if_pos (by omega)]
      obtain ⟨A, B, h1, h2, h3, h4⟩ := assign_ok hz hk hl hr hch ls (ii + 1)
        (infos.modify l (TimeInfo.addPoint (.fin (25 * (n : ℚ))) (ii + off))) rest hd' (by simpa using hlen)
        (fun j c hc => by
          rw [List.getElem?_modify] at hc
          obtain ⟨c0, hc0, e⟩ := Option.map_eq_some_iff.mp hc
          obtain ⟨p1, p2, p3⟩ := hI j c0 hc0
          by_cases hjl : l = j
          · rw [if_pos hjl] at e
            subst e
            refine ⟨p1.add hz hn, ?_, Or.inl (by simp [TimeInfo.addPoint])⟩
            intro i hi
            rcases List.mem_append.mp hi with hi | hi
            · exact p2 i hi
            · rw [List.mem_singleton.mp hi]
              refine ⟨by omega, ?_⟩
              rw [Nat.add_sub_cancel, hlab, hjl]
          · rw [if_neg hjl] at e
            have e' : c0 = c := e
            subst e'
            refine ⟨p1, p2, p3.imp_right fun h => ?_⟩
            rcases List.mem_cons.mp h with h | h
            · exact absurd h.symm hjl
            · exact h) hR
      refine ⟨A, B, h1, h2.trans ?_, h3, h4⟩
      rw [hrange]
      simp only [List.flatMap_append]
      have hp := flatMap_modify_perm infos (.fin (25 * (n : ℚ))) (ii + off) l (by omega)
      refine ((hp.append_right _).append_right _).trans ?_
      simp only [List.append_assoc]
      refine List.Perm.append_left _ ?_
      rw [← List.append_assoc [ii + off]]
      have : (List.flatMap TimeInfo.idx rest ++ (ii + off) :: List.range' (ii + 1 + off) ls.length) =
          (List.flatMap TimeInfo.idx rest ++ [ii + off]) ++ List.range' (ii + 1 + off) ls.length := by simp
      rw [this]
      exact List.Perm.append_right _ List.perm_append_comm

/-- A finished cluster. -/
structure Rep (z : List ℤ) (e : ℚ) (c : TimeInfo) : Prop where
  ne : c.idx ≠ []
  span : Span z c
  sum : SumOk z c
  conn : ∀ i ∈ c.idx, ∀ j ∈ c.idx, Connected (nsOf z) e i j

/-- One chunk. -/
theorem chunk_ok {z : List ℤ} (hz : Counters z) {c : DbCtx} {e : ℚ} (hm : Dbscan1D c.fit1D e) {chunk : List F64}
    (hne : chunk ≠ []) {off : Nat}
    (hch : ∀ ii t, chunk[ii]? = some t → ∃ n, z[ii + off]? = some n ∧ t = .fin (25 * (n : ℚ))) :
    ∃ out, chunkInfos c chunk off = .ok out ∧ (out.flatMap TimeInfo.idx).Perm (List.range' off chunk.length) ∧
      ∀ o ∈ out, Rep z e o := by
  have hg := hm.good chunk hne
  have hc := hm.connected chunk hne
  unfold chunkInfos
  generalize c.fit1D chunk = L at *
  simp only
  rw [if_neg (by rw [hg.centroids]; omega)]
  have htake : L.centroids.take L.k = L.centroids := List.take_of_length_le (by rw [hg.centroids])
  rw [htake]
  obtain ⟨A, B, h1, h2, h3, h4⟩ := assign_ok hz hg.small hg.len hg.range hch L.labels 0
    (L.centroids.map fun m => { TimeInfo.empty with mean := m }) [] rfl (by simp [hg.centroids])
    (fun j o ho => by
      rw [List.getElem?_map] at ho
      obtain ⟨m, hm, e⟩ := Option.map_eq_some_iff.mp ho
      subst e
      have hj := (List.getElem?_eq_some_iff.mp hm).1
      refine ⟨⟨fun _ => ⟨rfl, rfl⟩, fun h => absurd rfl h, fun _ => ?_⟩, fun i hi => ?_, Or.inr (hg.used j (hg.centroids ▸ hj))⟩
      · simp [TimeInfo.empty, sumAt]
      · simp [TimeInfo.empty] at hi)
    (by simp)
  refine ⟨A ++ B, h1, h2.trans ?_, ?_⟩
  · have : (List.map (fun m => { TimeInfo.empty with mean := m }) L.centroids).flatMap TimeInfo.idx = [] := by
      rw [List.flatMap_eq_nil_iff]
      intro o ho
      obtain ⟨m, _, e⟩ := List.mem_map.mp ho
      subst e; rfl
    simp [this, hg.len]
  · intro o ho
    rcases List.mem_append.mp ho with ho | ho
    · obtain ⟨j, hj⟩ := List.getElem?_of_mem ho
      obtain ⟨p1, p2, p3, p4, p5⟩ := h3 j o hj
      refine ⟨p1, p2, p3, ?_⟩
      intro a ha b hb
      obtain ⟨a1, a2⟩ := p5 a ha
      obtain ⟨b1, b2⟩ := p5 b hb
      have hconn := hc (a - off) (b - off) j a2 b2 (by have := hg.small; omega)
      have hlift : Connected (nsOf z) e (a - off + off) (b - off + off) := by
        refine Relation.ReflTransGen.lift (r := Near (chunk.map val) e) (fun i => i + off) ?_ _ _ hconn
        rintro i i' ⟨x, y, hx, hy, hxy⟩
        rw [List.getElem?_map] at hx hy
        obtain ⟨t, ht, et⟩ := Option.map_eq_some_iff.mp hx
        obtain ⟨t', ht', et'⟩ := Option.map_eq_some_iff.mp hy
        obtain ⟨n, hn, e1⟩ := hch i t ht
        obtain ⟨n', hn', e2⟩ := hch i' t' ht'
        refine ⟨x, y, nsOf_get.mpr ⟨n, hn, ?_⟩, nsOf_get.mpr ⟨n', hn', ?_⟩, hxy⟩
        · rw [← et, e1]; rfl
        · rw [← et', e2]; rfl
      rwa [Nat.sub_add_cancel a1, Nat.sub_add_cancel b1] at hlift
    · obtain ⟨p1, p2, i, p3⟩ := h4 o ho
      refine ⟨by simp [p3], p1, p2, ?_⟩
      intro a ha b hb
      rw [p3] at ha hb
      rw [List.mem_singleton.mp ha, List.mem_singleton.mp hb]
      exact Relation.ReflTransGen.refl

/-- All chunks. -/
theorem fitChunks_ok {z : List ℤ} (hz : Counters z) {c : DbCtx} {e : ℚ} (hm : Dbscan1D c.fit1D e) {size : Nat}
    (hs : 0 < size) : ∀ (fuel off : Nat) (all : List TimeInfo), off < z.length → z.length < fuel + off →
      (all.flatMap TimeInfo.idx).Perm (List.range' 0 off) → (∀ o ∈ all, Rep z e o) →
      ∃ out, fitChunks c size fuel off (((nsOf z).map F64.fin).drop off) all = .ok out ∧
        (out.flatMap TimeInfo.idx).Perm (List.range' 0 z.length) ∧ ∀ o ∈ out, Rep z e o
  | 0, off, _, h1, h2, _, _ => by omega
  | fuel + 1, off, all, h1, h2, hall, hrep => by
    have hlen : ((nsOf z).map F64.fin).length = z.length := by simp [nsOf]
    unfold fitChunks
    set ts := ((nsOf z).map F64.fin).drop off with hts
    have htl : ts.length = z.length - off := by rw [hts, List.length_drop, hlen]
    have hcl : (ts.take size).length = min size (z.length - off) := by rw [List.length_take, htl]
    obtain ⟨o1, e1, e2, e3⟩ := chunk_ok hz hm (chunk := ts.take size) (off := off)
      (by intro h; rw [h] at hcl; simp at hcl; omega)
      (by
        intro ii t ht
        have ht' : ts[ii]? = some t := by
          rw [List.getElem?_take] at ht
          split_ifs at ht
          exact ht
        rw [hts, List.getElem?_drop, List.getElem?_map] at ht'
        obtain ⟨q, hq, e⟩ := Option.map_eq_some_iff.mp ht'
        obtain ⟨n, hn, e'⟩ := nsOf_get.mp hq
        exact ⟨n, by rw [Nat.add_comm]; exact hn, by rw [← e, e']⟩)
    rw [e1]
    simp only [Res.bind]
    have hperm : ((all ++ o1).flatMap TimeInfo.idx).Perm (List.range' 0 (off + (ts.take size).length)) := by
      rw [List.flatMap_append, ← List.range'_append]
      simpa using hall.append e2
    have hrep' : ∀ o ∈ all ++ o1, Rep z e o := by
      intro o ho
      rcases List.mem_append.mp ho with ho | ho
      · exact hrep o ho
      · exact e3 o ho
    by_cases hd : ts.drop size = []
    · rw [if_pos hd]
      refine ⟨all ++ o1, rfl, ?_, hrep'⟩
      have : off + (ts.take size).length = z.length := by
        have := congrArg List.length hd
        rw [List.length_drop, htl] at this
        simp only [List.length_nil] at this
        rw [hcl]; omega
      rwa [this] at hperm
    · rw [if_neg hd]
      have hlt : size < z.length - off := by
        by_contra hc
        exact hd (List.drop_eq_nil_of_le (by omega))
      have hdd : ts.drop size = ((nsOf z).map F64.fin).drop (off + size) := by rw [hts, List.drop_drop]
      rw [hdd]
      refine fitChunks_ok hz hm hs fuel (off + size) (all ++ o1) (by omega) (by omega) ?_ hrep'
      have : (ts.take size).length = size := by rw [hcl]; omega
      rwa [this] at hperm

/-! ## Groups are connected components -/

theorem Near.symm {T : List ℚ} {e : ℚ} {i j : Nat} (h : Near T e i j) : Near T e j i := by
  obtain ⟨a, b, h1, h2, h3⟩ := h
  exact ⟨b, a, h2, h1, by rwa [abs_sub_comm]⟩

theorem Connected.symm {T : List ℚ} {e : ℚ} {i j : Nat} (h : Connected T e i j) : Connected T e j i := by
  unfold Connected at *
  induction h with
  | refl => exact .refl
  | tail _ h ih => exact .head (Near.symm h) ih

/-- A path from below `v` to above `v` passes within `e` of `v`. -/
theorem crossing {T : List ℚ} {e : ℚ} (he : 0 ≤ e) {i j : Nat} (h : Connected T e i j) {x y v : ℚ} (hx : T[i]? = some x)
    (hy : T[j]? = some y) (h1 : x ≤ v) (h2 : v ≤ y) : ∃ p t, Connected T e i p ∧ T[p]? = some t ∧ |t - v| ≤ e := by
  unfold Connected at *
  induction h using Relation.ReflTransGen.head_induction_on generalizing x with
  | refl =>
    rw [hx] at hy
    have hxy : x = y := Option.some.inj hy
    have : x - v = 0 := by linarith
    exact ⟨j, x, .refl, hx, by rw [this, abs_zero]; exact he⟩
  | @head i k hik _ ih =>
    obtain ⟨a, w, ha, hw, hd⟩ := hik
    rw [hx] at ha
    have hxa : x = a := Option.some.inj ha
    subst hxa
    by_cases hwv : w ≤ v
    · obtain ⟨p, t, c1, c2, c3⟩ := ih hw hwv
      exact ⟨p, t, .head ⟨x, w, hx, hw, hd⟩ c1, c2, c3⟩
    · refine ⟨i, x, .refl, hx, ?_⟩
      rw [abs_le] at hd ⊢
      constructor <;> linarith [not_le.mp hwv]

/-- Subtracting `DBL_MIN` from a time does not change it. -/
theorem rnd_tiny {n : ℤ} (h0 : 0 < n) (h1 : n < 16384) : rndQ (25 * (n : ℚ) - 2 ^ (-1022 : ℤ)) = 25 * (n : ℚ) := by
  have hd := dblMin_bounds
  have hsmall : (2 : ℚ) ^ (-1022 : ℤ) ≤ 2 ^ (-62 : ℤ) := zpow_le_zpow_right₀ (by norm_num) (by norm_num)
  have hn0 : (1 : ℚ) ≤ n := by exact_mod_cast h0
  have hn1 : (n : ℚ) < 16384 := by exact_mod_cast h1
  generalize hδ : (2 : ℚ) ^ (-1022 : ℤ) = δ at *
  have hδ1 : δ ≤ 1 := hsmall.trans (zpow_le_one_of_nonpos₀ (by norm_num) (by norm_num))
  have hq0 : (2 : ℚ) ^ (4 : ℤ) ≤ 25 * (n : ℚ) - δ := by norm_num; linarith
  have hq1 : 25 * (n : ℚ) - δ < (2 : ℚ) ^ (19 : ℤ) := by norm_num; linarith [hd.1]
  have hpos : 0 < 25 * (n : ℚ) - δ := lt_of_lt_of_le (by norm_num) hq0
  have hl0 : 4 ≤ Int.log 2 (25 * (n : ℚ) - δ) := (Int.zpow_le_iff_le_log (by norm_num) hpos).mp hq0
  have hl1 : Int.log 2 (25 * (n : ℚ) - δ) < 19 := (Int.lt_zpow_iff_log_lt (by norm_num) hpos).mp hq1
  unfold rndQ
  rw [if_neg hpos.ne']
  obtain ⟨m, hm, hm60⟩ : ∃ m : ℕ, ulpExp (25 * (n : ℚ) - δ) = -(m : ℤ) ∧ m ≤ 60 := by
    refine ⟨(52 - Int.log 2 (25 * (n : ℚ) - δ)).toNat, ?_, ?_⟩
    · unfold ulpExp
      rw [abs_of_pos hpos]
      omega
    · omega
  rw [hm, zpow_neg, zpow_natCast]
  have hpm : (0 : ℚ) < 2 ^ m := by positivity
  have hq : (25 * (n : ℚ) - δ) / (2 ^ m)⁻¹ = ((25 * n * 2 ^ m : ℤ) : ℚ) - δ * 2 ^ m := by
    rw [div_inv_eq_mul]; push_cast; ring
  have hε0 : 0 < δ * 2 ^ m := by have := hd.1; positivity
  have hε1 : δ * 2 ^ m ≤ 1 / 4 := by
    have h60 : (2 : ℚ) ^ m ≤ 2 ^ 60 := pow_le_pow_right₀ (by norm_num) hm60
    calc δ * 2 ^ m ≤ 2 ^ (-62 : ℤ) * 2 ^ 60 := by
          apply mul_le_mul hsmall h60 hpm.le (by positivity)
      _ = 1 / 4 := by norm_num
  have hround : ∀ (M : ℤ) (ε : ℚ), 0 < ε → ε ≤ 1 / 4 → roundNE ((M : ℚ) - ε) = M := by
    intro M ε h1 h2
    have hf : ⌊(M : ℚ) - ε⌋ = M - 1 := by
      rw [Int.floor_eq_iff]; push_cast; constructor <;> linarith
    unfold roundNE
    simp only [hf]
    push_cast
    rw [if_neg (by linarith), if_pos (by linarith)]
    omega
  rw [hq, hround _ _ hε0 hε1]
  push_cast
  field_simp

/-- Two touching clusters are connected. -/
theorem touch_connected {z : List ℤ} (hz : Counters z) {e : ℚ} (he : 0 ≤ e) {a b : TimeInfo} (ha : Rep z e a)
    (hb : Rep z e b) (hab : val a.tmin ≤ val b.tmin) (ht : Touch e a b) :
    ∃ i ∈ a.idx, ∃ j ∈ b.idx, Connected (nsOf z) e i j := by
  obtain ⟨jl, hjl, nb, hnb, eb⟩ := hb.span.lo
  obtain ⟨ih, hih, na, hna, ea⟩ := ha.span.hi
  obtain ⟨il, hil, nl, hnl, el⟩ := ha.span.lo
  have hb2 := hz nb (List.mem_of_getElem? hnb)
  have ha2 := hz na (List.mem_of_getElem? hna)
  have hTb : (nsOf z)[jl]? = some (25 * (nb : ℚ)) := nsOf_get.mpr ⟨nb, hnb, rfl⟩
  have hTa : (nsOf z)[ih]? = some (25 * (na : ℚ)) := nsOf_get.mpr ⟨na, hna, rfl⟩
  have hTl : (nsOf z)[il]? = some (25 * (nl : ℚ)) := nsOf_get.mpr ⟨nl, hnl, rfl⟩
  have hnear : |25 * (na : ℚ) - 25 * (nb : ℚ)| ≤ e → ∃ i ∈ a.idx, ∃ j ∈ b.idx, Connected (nsOf z) e i j :=
    fun h => ⟨ih, hih, jl, hjl, .single ⟨_, _, hTa, hTb, h⟩⟩
  have hvb : val b.tmin = 25 * (nb : ℚ) := by rw [eb]; rfl
  have hvl : val a.tmin = 25 * (nl : ℚ) := by rw [el]; rfl
  have hd := dblMin_bounds
  have hnb0 : (0 : ℚ) ≤ nb := by exact_mod_cast hb2.1
  unfold Touch at ht
  rw [hvb] at ht hab
  rw [hvl] at hab
  rcases ea with ea | ⟨e0, ea⟩
  · have hva : val a.tmax = 25 * (na : ℚ) := by rw [ea]; rfl
    rw [hva] at ht
    by_cases hle : 25 * (nb : ℚ) ≤ 25 * (na : ℚ)
    · obtain ⟨p, t, c1, c2, c3⟩ := crossing he (ha.conn il hil ih hih) hTl hTa hab hle
      exact ⟨il, hil, jl, hjl, c1.tail ⟨t, _, c2, hTb, c3⟩⟩
    · have h := ht.resolve_left hle
      have hq : 25 * (nb : ℚ) - 25 * (na : ℚ) = ((25 * nb - 25 * na : ℤ) : ℚ) := by push_cast; ring
      rw [hq, rndQ_int (by rw [abs_le]; constructor <;> omega), ← hq] at h
      apply hnear
      rw [abs_le]
      constructor <;> linarith
  · have hva : val a.tmax = 2 ^ (-1022 : ℤ) := by rw [ea]; rfl
    rw [hva] at ht
    subst e0
    rcases hb2.1.eq_or_lt with h0 | h0
    · apply hnear
      rw [← h0]
      simpa using he
    · have h1 : (1 : ℚ) ≤ nb := by exact_mod_cast h0
      have h := ht.resolve_left (by linarith [hd.2])
      rw [rnd_tiny h0 hb2.2] at h
      apply hnear
      rw [abs_le]
      constructor <;> push_cast <;> linarith

/-- The points of a chained group are connected. -/
theorem chained_connected {z : List ℤ} (hz : Counters z) {e : ℚ} (he : 0 ≤ e) {g : List TimeInfo} (hc : Chained e g) :
    (∀ a ∈ g, Rep z e a) → g.Pairwise (fun a b => val a.tmin ≤ val b.tmin) →
    ∀ i ∈ g.flatMap TimeInfo.idx, ∀ j ∈ g.flatMap TimeInfo.idx, Connected (nsOf z) e i j := by
  induction hc with
  | one a =>
    intro hr _ i hi j hj
    simp only [List.flatMap_cons, List.flatMap_nil, List.append_nil] at hi hj
    exact (hr a (by simp)).conn i hi j hj
  | snoc g a b hg hag ht ih =>
    intro hr hp
    obtain ⟨hp1, -, hp3⟩ := List.pairwise_append.mp hp
    have ih' := ih (fun x hx => hr x (by simp [hx])) hp1
    have hrb := hr b (by simp)
    obtain ⟨p, hp', q, hq, hpq⟩ := touch_connected hz he (hr a (by simp [hag])) hrb (hp3 a hag b (by simp)) ht
    have hpg : p ∈ g.flatMap TimeInfo.idx := List.mem_flatMap.mpr ⟨a, hag, hp'⟩
    have hto : ∀ i ∈ (g ++ [b]).flatMap TimeInfo.idx, Connected (nsOf z) e p i := by
      intro i hi
      simp only [List.flatMap_append, List.flatMap_cons, List.flatMap_nil, List.append_nil, List.mem_append] at hi
      rcases hi with hi | hi
      · exact ih' p hpg i hi
      · exact hpq.trans (hrb.conn q hq i hi)
    intro i hi j hj
    exact (Connected.symm (hto i hi)).trans (hto j hj)

theorem groupSum_exact {z : List ℤ} (hz : Counters z) {e : ℚ} {g : List TimeInfo} (hc : Chained e g) :
    (∀ a ∈ g, SumOk z a) → (g.flatMap TimeInfo.idx).length ≤ 2 ^ 34 →
    groupSum g = .fin ((25 * sumAt z (g.flatMap TimeInfo.idx) : ℤ) : ℚ) := by
  induction hc with
  | one a =>
    intro hs hl
    simp only [List.flatMap_cons, List.flatMap_nil, List.append_nil] at hl ⊢
    exact hs a (by simp) hl
  | snoc g a b hg hag ht ih =>
    intro hs hl
    have hfm : (g ++ [b]).flatMap TimeInfo.idx = g.flatMap TimeInfo.idx ++ b.idx := by simp
    rw [hfm] at hl ⊢
    have hl' := hl
    rw [List.length_append] at hl'
    rw [groupSum_snoc hg.ne_nil, ih (fun x hx => hs x (by simp [hx])) (by omega), hs b (by simp) (by omega),
      add_exact hz hl]

theorem sumAt_ns (z : List ℤ) (idx : List Nat) : (25 * (sumAt z idx : ℚ)) = (idx.map fun i => (nsOf z).getD i 0).sum := by
  induction idx with
  | nil => simp [sumAt]
  | cons i idx ih =>
    simp only [sumAt, List.map_cons, List.sum_cons] at ih ⊢
    push_cast
    rw [mul_add, ih]
    congr 1
    simp only [nsOf, List.getD_eq_getElem?_getD, List.getElem?_map]
    cases z[i]? <;> simp

theorem toaNs_map {hits : List Hit} (h : Counters (hits.map Hit.toa)) :
    hits.map Hit.toaNs = (nsOf (hits.map Hit.toa)).map F64.fin := by
  simp only [nsOf, List.map_map]
  apply List.map_congr_left
  intro a ha
  have := h a.toa (List.mem_map_of_mem ha)
  simp only [Function.comp]
  unfold Hit.toaNs
  rw [F64.ofInt_exact (by rw [abs_le]; constructor <;> omega), show (25 : ℚ) = ((25 : ℤ) : ℚ) by norm_num,
    F64.ofRat_int (by norm_num)]
  show F64.ofRat (_ * _) = _
  rw [← Int.cast_mul, F64.ofRat_int (by rw [abs_le]; constructor <;> omega)]
  congr 1
  push_cast
  ring

/-- C60.  The time clusters of `fit` are the connected components of the arrival times. -/
theorem c60_components (c : DbCtx) (e : ℚ) (he : FiniteDouble e) (he0 : 0 ≤ e) (hc : c.epsTime = .fin e)
    (hsort : SortsByStart c.sort) (hm : Dbscan1D c.fit1D e) (size : Nat) (hs : 0 < size) (hits : List Hit)
    (hne : hits ≠ []) (hz : ∀ h ∈ hits, 0 ≤ h.toa ∧ h.toa < 16384) :
    ∃ out, timeClusters c size hits = .ok out ∧
      Components (hits.map toaNsQ) e c.minTime (out.map TimeInfo.idx) ∧
      (hits.length ≤ 2 ^ 34 → ∀ o ∈ out,
        o.mean = F64.ofRat (((o.idx.map fun i => (hits.map toaNsQ).getD i 0).sum) / o.idx.length)) := by
  have hz' : Counters (hits.map Hit.toa) := by
    intro t ht
    obtain ⟨h, hh, rfl⟩ := List.mem_map.mp ht
    exact hz h hh
  have hT : hits.map toaNsQ = nsOf (hits.map Hit.toa) := by
    simp [nsOf, List.map_map, toaNsQ, Function.comp_def]
  have hlen : (hits.map Hit.toa).length = hits.length := by simp
  have hpos : 0 < hits.length := List.length_pos_iff.mpr hne
  unfold timeClusters
  rw [toaNs_map hz', hT]
  generalize hits.map Hit.toa = z at *
  obtain ⟨all, e1, e2, e3⟩ := fitChunks_ok hz' hm hs (hits.length + 1) 0 [] (by omega) (by omega) (by simp) (by simp)
  rw [List.drop_zero] at e1
  rw [e1]
  simp only [Res.bind]
  have hall : all ≠ [] := by
    rintro rfl
    have := e2.length_eq
    simp at this
    omega
  rw [if_neg hall]
  have hfin : ∀ i ∈ all, FiniteSpan i := fun i hi => (e3 i hi).span.fin
  obtain ⟨G, out, h1, h2, h3, h4, h5, h6⟩ := c55_groups c e he hc hsort all hall hfin
  have hsorted := (hsort all hfin).2
  rw [← h2] at hsorted
  have hrep : ∀ a ∈ G.flatten, Rep z e a := fun a ha => e3 a (h3.mem_iff.mp ha)
  have hpermG : (G.flatten.flatMap TimeInfo.idx).Perm (List.range' 0 z.length) := (h3.flatMap_right _).trans e2
  have hndG : (G.flatten.flatMap TimeInfo.idx).Nodup := hpermG.nodup_iff.mpr (List.nodup_range')
  have hTlen : (nsOf z).length = z.length := by simp [nsOf]
  -- every group is closed under steps, and connected
  have hconn : ∀ g ∈ G, ∀ i ∈ g.flatMap TimeInfo.idx, ∀ j ∈ g.flatMap TimeInfo.idx, Connected (nsOf z) e i j := by
    intro g hg
    refine chained_connected hz' he0 (h4 g hg) (fun a ha => hrep a (List.mem_flatten.mpr ⟨g, hg, ha⟩)) ?_
    exact hsorted.sublist (List.sublist_flatten_of_mem hg)
  have hstep : ∀ g ∈ G, ∀ i ∈ g.flatMap TimeInfo.idx, ∀ j, Near (nsOf z) e i j → j ∈ g.flatMap TimeInfo.idx := by
    intro g hg i hi j hij
    obtain ⟨x, y, hx, hy, hxy⟩ := hij
    have hj : j ∈ G.flatten.flatMap TimeInfo.idx := by
      rw [hpermG.mem_iff, List.mem_range'_1]
      have := (List.getElem?_eq_some_iff.mp hy).1
      omega
    obtain ⟨b, hb, hjb⟩ := List.mem_flatMap.mp hj
    obtain ⟨g', hg', hbg'⟩ := List.mem_flatten.mp hb
    obtain ⟨a, ha, hia⟩ := List.mem_flatMap.mp hi
    by_cases hgg : g = g'
    · subst hgg
      exact List.mem_flatMap.mpr ⟨b, hbg', hjb⟩
    · exfalso
      obtain ⟨n1, q1, l1, u1⟩ := (hrep a (List.mem_flatten.mpr ⟨g, hg, ha⟩)).span.within i hia
      obtain ⟨n2, q2, l2, u2⟩ := (hrep b hb).span.within j hjb
      have ex : x = 25 * (n1 : ℚ) := by
        have := nsOf_get.mpr ⟨n1, q1, rfl⟩
        rw [hx] at this; exact Option.some.inj this
      have ey : y = 25 * (n2 : ℚ) := by
        have := nsOf_get.mpr ⟨n2, q2, rfl⟩
        rw [hy] at this; exact Option.some.inj this
      have : Std.Symm fun x y => Apart e x y ∨ Apart e y x := ⟨fun _ _ h => h.symm⟩
      have h7 : G.Pairwise fun x y => Apart e x y ∨ Apart e y x := h5.imp fun h => Or.inl h
      rw [abs_le] at hxy
      rcases h7.forall hg hg' hgg with h | h
      · have := h a ha b hbg'
        linarith [hxy.1]
      · have := h b hbg' a ha
        linarith [hxy.2]
  have hclosed : ∀ g ∈ G, ∀ i ∈ g.flatMap TimeInfo.idx, ∀ j, j ∈ g.flatMap TimeInfo.idx ↔ Connected (nsOf z) e i j := by
    intro g hg i hi j
    refine ⟨hconn g hg i hi j, fun h => ?_⟩
    induction h with
    | refl => exact hi
    | tail _ hst ih => exact hstep g hg _ ih _ hst
  have hcard : ∀ g ∈ G, ∀ i ∈ g.flatMap TimeInfo.idx, Set.ncard {j | Connected (nsOf z) e i j} = groupSize g := by
    intro g hg i hi
    have hset : {j | Connected (nsOf z) e i j} = ((g.flatMap TimeInfo.idx).toFinset : Set Nat) := by
      ext j
      simp only [Set.mem_ofPred_eq, List.coe_toFinset]
      exact (hclosed g hg i hi j).symm
    have hnd : (g.flatMap TimeInfo.idx).Nodup := hndG.sublist ((List.sublist_flatten_of_mem hg).flatMap _)
    rw [hset, Set.ncard_coe_finset, List.toFinset_card_of_nodup hnd]
    rfl
  have hmem : ∀ o ∈ out, ∃ g ∈ G, c.minTime ≤ groupSize g ∧ Written g o := by
    intro o ho
    obtain ⟨g, hg, hw⟩ := written_mem h6 o ho
    obtain ⟨p1, p2⟩ := List.mem_filter.mp hg
    exact ⟨g, p1, by simpa using p2, hw⟩
  have hsubl : (out.flatMap TimeInfo.idx).Sublist (G.flatten.flatMap TimeInfo.idx) := by
    rw [written_flatMap h6]
    exact (flatten_filter_sublist (fun g => decide (c.minTime ≤ groupSize g)) G).flatMap TimeInfo.idx
  have hgne : ∀ g ∈ G, g.flatMap TimeInfo.idx ≠ [] := by
    intro g hg
    obtain ⟨b, hb⟩ := List.exists_mem_of_ne_nil g (h4 g hg).ne_nil
    obtain ⟨i, hi⟩ := List.exists_mem_of_ne_nil b.idx (hrep b (List.mem_flatten.mpr ⟨g, hg, hb⟩)).ne
    exact List.ne_nil_of_mem (List.mem_flatMap.mpr ⟨b, hb, hi⟩)
  refine ⟨out, h1, ⟨?_, ?_, ?_, ?_, ?_, ?_⟩, ?_⟩
  · intro o ho
    obtain ⟨o', ho', rfl⟩ := List.mem_map.mp ho
    obtain ⟨g, hg, _, hw⟩ := hmem o' ho'
    rw [hw.1.idx]
    exact hgne g hg
  · rw [← List.flatMap_def]
    exact hndG.sublist hsubl
  · intro o ho i hi
    obtain ⟨o', ho', rfl⟩ := List.mem_map.mp ho
    have := hsubl.subset (List.mem_flatMap.mpr ⟨o', ho', hi⟩)
    rw [hpermG.mem_iff, List.mem_range'_1] at this
    omega
  · intro o ho i hi j
    obtain ⟨o', ho', rfl⟩ := List.mem_map.mp ho
    obtain ⟨g, hg, _, hw⟩ := hmem o' ho'
    rw [hw.1.idx] at hi ⊢
    exact hclosed g hg i hi j
  · intro i hi
    have hiG : i ∈ G.flatten.flatMap TimeInfo.idx := by
      rw [hpermG.mem_iff, List.mem_range'_1]; omega
    obtain ⟨b, hb, hib⟩ := List.mem_flatMap.mp hiG
    obtain ⟨g, hg, hbg⟩ := List.mem_flatten.mp hb
    have hig : i ∈ g.flatMap TimeInfo.idx := List.mem_flatMap.mpr ⟨b, hbg, hib⟩
    rw [hcard g hg i hig]
    constructor
    · rintro ⟨o, ho, hio⟩
      obtain ⟨o', ho', rfl⟩ := List.mem_map.mp ho
      obtain ⟨g', hg', hm', hw⟩ := hmem o' ho'
      rw [hw.1.idx] at hio
      rw [← hcard g hg i hig, hcard g' hg' i hio]
      exact hm'
    · intro hm'
      obtain ⟨o, ho, hw⟩ := written_mem' h6 g (List.mem_filter.mpr ⟨hg, by simpa using hm'⟩)
      exact ⟨o.idx, List.mem_map_of_mem ho, by rw [hw.1.idx]; exact hig⟩
  · rw [List.pairwise_map]
    refine List.Pairwise.imp_of_mem ?_ (written_pairwise h6 (h5.sublist List.filter_sublist))
    intro a b ha hb hab i hi j hj x y hx hy
    obtain ⟨g, hg, _, hw⟩ := hmem a ha
    obtain ⟨g', hg', _, hw'⟩ := hmem b hb
    rw [hw.1.idx] at hi
    rw [hw'.1.idx] at hj
    obtain ⟨a', ha', hia⟩ := List.mem_flatMap.mp hi
    obtain ⟨b', hb', hjb⟩ := List.mem_flatMap.mp hj
    obtain ⟨n1, q1, l1, u1⟩ := (hrep a' (List.mem_flatten.mpr ⟨g, hg, ha'⟩)).span.within i hia
    obtain ⟨n2, q2, l2, u2⟩ := (hrep b' (List.mem_flatten.mpr ⟨g', hg', hb'⟩)).span.within j hjb
    have ex : x = 25 * (n1 : ℚ) := by
      have := nsOf_get.mpr ⟨n1, q1, rfl⟩
      rw [hx] at this; exact Option.some.inj this
    have ey : y = 25 * (n2 : ℚ) := by
      have := nsOf_get.mpr ⟨n2, q2, rfl⟩
      rw [hy] at this; exact Option.some.inj this
    have t1 := hw.1.tmax.2 a' ha'
    have t2 := hw'.1.tmin.2 b' hb'
    linarith
  · intro hn o ho
    obtain ⟨g, hg, _, hw⟩ := hmem o ho
    have hl : (g.flatMap TimeInfo.idx).length ≤ z.length := by
      have := ((List.sublist_flatten_of_mem hg).flatMap TimeInfo.idx).length_le
      have h' := hpermG.length_eq
      rw [List.length_range'] at h'
      omega
    have hgl : (g.flatMap TimeInfo.idx).length ≤ 2 ^ 34 := by omega
    rw [hw.2.2, groupSum_exact hz' (h4 g hg) (fun a ha => (hrep a (List.mem_flatten.mpr ⟨g, hg, ha⟩)).sum) hgl, hw.1.idx]
    have hpos' : 0 < groupSize g := List.length_pos_iff.mpr (hgne g hg)
    unfold groupSize at *
    generalize g.flatMap TimeInfo.idx = idx at *
    rw [F64.ofInt_exact (by rw [abs_le]; constructor <;> omega)]
    unfold F64.div
    simp only
    rw [if_neg (by have : (idx.length : ℚ) ≠ 0 := by positivity
                   exact_mod_cast this)]
    congr 1
    push_cast
    congr 1
    rw [sumAt_ns]

/-- Two runs with different chunk sizes, different orders of clusters that start together and different labellings find
the same clusters. -/
theorem c60_chunking (c c' : DbCtx) (e : ℚ) (he : FiniteDouble e) (he0 : 0 ≤ e) (hc : c.epsTime = .fin e)
    (hc' : c'.epsTime = .fin e) (hmin : c'.minTime = c.minTime)
    (hsort : SortsByStart c.sort) (hm : Dbscan1D c.fit1D e) (hsort' : SortsByStart c'.sort) (hm' : Dbscan1D c'.fit1D e)
    (size size' : Nat) (hs : 0 < size) (hs' : 0 < size') (hits : List Hit)
    (hne : hits ≠ []) (hz : ∀ h ∈ hits, 0 ≤ h.toa ∧ h.toa < 16384) (hn : hits.length ≤ 2 ^ 34) :
    ∃ out out', timeClusters c size hits = .ok out ∧ timeClusters c' size' hits = .ok out' ∧
      ∀ o ∈ out, ∃ o' ∈ out', o'.idx.Perm o.idx ∧ o'.mean = o.mean := by
  obtain ⟨out, h1, h2, h3⟩ := c60_components c e he he0 hc hsort hm size hs hits hne hz
  obtain ⟨out', h1', h2', h3'⟩ := c60_components c' e he he0 hc' hsort' hm' size' hs' hits hne hz
  refine ⟨out, out', h1, h1', ?_⟩
  intro o ho
  have ho' : o.idx ∈ out.map TimeInfo.idx := List.mem_map_of_mem ho
  obtain ⟨i, hi⟩ := List.exists_mem_of_ne_nil _ (h2.ne _ ho')
  have hb := h2.bound _ ho' i hi
  have hsz := (h2.all i hb).mp ⟨_, ho', hi⟩
  rw [← hmin] at hsz
  obtain ⟨x, hx, hix⟩ := (h2'.all i hb).mpr hsz
  obtain ⟨o', ho1, rfl⟩ := List.mem_map.mp hx
  have hperm : o'.idx.Perm o.idx := by
    have hnd : o.idx.Nodup := h2.nodup.sublist (List.sublist_flatten_of_mem ho')
    have hnd' : o'.idx.Nodup := h2'.nodup.sublist (List.sublist_flatten_of_mem hx)
    rw [List.perm_ext_iff_of_nodup hnd' hnd]
    intro j
    rw [h2.closed _ ho' i hi j, h2'.closed _ hx i hix j]
  refine ⟨o', ho1, hperm, ?_⟩
  rw [h3 hn o ho, h3' hn o' ho1, hperm.length_eq, (hperm.map _).sum_eq]

end Verif.Props
