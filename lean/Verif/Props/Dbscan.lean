import Verif.Spec.Dbscan
import Verif.Lemmas.F64
import Mathlib.Data.List.Perm.Subperm

/-!
# Merging of time clusters (C55)
-/

namespace Verif.Props

open Verif Verif.Spec

theorem isFinite_val {x : F64} (h : x.isFinite = true) : x = .fin (val x) := by
  cases x <;> simp_all [F64.isFinite, val]

/-- Two clusters that are not merged are more than `e` apart, exactly. -/
theorem near_false {e : ℚ} (he : FiniteDouble e) {a b : TimeInfo} (ha : FiniteSpan a) (hb : FiniteSpan b)
    (h : a.near (.fin e) b = false) : val a.tmax + e < val b.tmin := by
  obtain ⟨h1, h2⟩ := Bool.or_eq_false_iff.mp h
  rw [isFinite_val ha.2, isFinite_val hb.1] at h1 h2
  generalize val a.tmax = x at *
  generalize val b.tmin = y at *
  have hxy : x ≤ y := by simpa [F64.lt] using h1
  by_contra hc
  have hd : y + -x ≤ e := by linarith
  have hd0 : 0 ≤ y + -x := by linarith
  have hr := rndQ_mono hd
  have hr0 := rndQ_nonneg hd0
  have hev : rndQ e = e ∧ |rndQ e| < (2 : ℚ) ^ (1024 : ℤ) := by
    unfold FiniteDouble F64.ofRat at he
    simp only at he
    split_ifs at he with hb
    · exact ⟨F64.fin.inj he, not_le.mp hb⟩
  have hlt : |rndQ (y + -x)| < (2 : ℚ) ^ (1024 : ℤ) := by
    rw [abs_of_nonneg hr0]
    exact lt_of_le_of_lt (hr.trans (le_abs_self _)) hev.2
  have : F64.le (F64.sub (.fin y) (.fin x)) (.fin e) = true := by
    show F64.le (F64.ofRat (y + -x)) (.fin e) = true
    rw [F64.ofRat_eq_fin hlt]
    simp only [F64.le, decide_eq_true_eq]
    rw [← hev.1]; exact hr
  rw [this] at h2
  cases h2

/-- Two clusters that are merged touch. -/
theorem near_true {e : ℚ} {a b : TimeInfo} (ha : FiniteSpan a) (hb : FiniteSpan b)
    (h : a.near (.fin e) b = true) : Touch e a b := by
  unfold TimeInfo.near at h
  rw [isFinite_val ha.2, isFinite_val hb.1, Bool.or_eq_true] at h
  unfold Touch
  generalize val a.tmax = x at *
  generalize val b.tmin = y at *
  rcases h with h | h
  · exact Or.inl (le_of_lt (by simpa [F64.lt] using h))
  · by_cases hxy : y ≤ x
    · exact Or.inl hxy
    · right
      have h' : F64.le (F64.ofRat (y + -x)) (.fin e) = true := h
      unfold F64.ofRat at h'
      simp only at h'
      rw [sub_eq_add_neg]
      split_ifs at h' with hb
      · have : ¬ (y + -x < 0) := by linarith
        simp [F64.le, this] at h'
      · simpa [F64.le] using h'

theorem stdMax_fin {a b : F64} (ha : a.isFinite = true) (hb : b.isFinite = true) :
    (stdMax a b = a ∨ stdMax a b = b) ∧ val a ≤ val (stdMax a b) ∧ val b ≤ val (stdMax a b) := by
  rw [isFinite_val ha, isFinite_val hb]
  generalize val a = x
  generalize val b = y
  unfold stdMax F64.lt
  simp only [decide_eq_true_eq]
  split_ifs with h
  · exact ⟨Or.inr rfl, le_of_lt h, le_refl _⟩
  · exact ⟨Or.inl rfl, le_refl _, not_lt.mp h⟩

theorem stdMin_fin {a b : F64} (ha : a.isFinite = true) (hb : b.isFinite = true) :
    (stdMin a b = a ∨ stdMin a b = b) ∧ val (stdMin a b) ≤ val a ∧ val (stdMin a b) ≤ val b := by
  rw [isFinite_val ha, isFinite_val hb]
  generalize val a = x
  generalize val b = y
  unfold stdMin F64.lt
  simp only [decide_eq_true_eq]
  split_ifs with h
  · exact ⟨Or.inr rfl, le_of_lt h, le_refl _⟩
  · exact ⟨Or.inl rfl, le_refl _, not_lt.mp h⟩

theorem _root_.Verif.Spec.UnionOf.finite {g : List TimeInfo} {o : TimeInfo} (h : UnionOf g o) (hg : ∀ a ∈ g, FiniteSpan a) :
    FiniteSpan o := by
  obtain ⟨a, ha, e1⟩ := h.tmin.1
  obtain ⟨b, hb, e2⟩ := h.tmax.1
  exact ⟨e1 ▸ (hg a ha).1, e2 ▸ (hg b hb).2⟩

/-- Joining one more cluster. -/
theorem _root_.Verif.Spec.UnionOf.snoc {g : List TimeInfo} {o b : TimeInfo} (h : UnionOf g o) (hg : ∀ a ∈ g, FiniteSpan a)
    (hb : FiniteSpan b) : UnionOf (g ++ [b]) (o.join b) := by
  have ho := h.finite hg
  have h1 := stdMin_fin ho.1 hb.1
  have h2 := stdMax_fin ho.2 hb.2
  refine ⟨by simp [TimeInfo.join, h.idx], ⟨?_, ?_⟩, ⟨?_, ?_⟩⟩
  · rcases h1.1 with e | e
    · obtain ⟨a, ha, e1⟩ := h.tmin.1
      exact ⟨a, by simp [ha], by rw [← e1, ← e]; rfl⟩
    · exact ⟨b, by simp, by rw [← e]; rfl⟩
  · intro a ha
    rcases List.mem_append.mp ha with ha | ha
    · exact h1.2.1.trans (h.tmin.2 a ha)
    · rw [List.mem_singleton.mp ha]; exact h1.2.2
  · rcases h2.1 with e | e
    · obtain ⟨a, ha, e1⟩ := h.tmax.1
      exact ⟨a, by simp [ha], by rw [← e1, ← e]; rfl⟩
    · exact ⟨b, by simp, by rw [← e]; rfl⟩
  · intro a ha
    rcases List.mem_append.mp ha with ha | ha
    · exact (h.tmax.2 a ha).trans h2.2.1
    · rw [List.mem_singleton.mp ha]; exact h2.2.2

/-- Number of points of a group. -/
def groupSize (g : List TimeInfo) : Nat := (g.flatMap TimeInfo.idx).length

/-- The sum `m_time_sum` of a group, added from the left. -/
def groupSum : List TimeInfo → F64
  | [] => .fin 0
  | a :: g => g.foldl (fun s b => F64.add s b.sum) a.sum

/-- A written cluster: the union of a group, with the mean of its points. -/
def Written (g : List TimeInfo) (o : TimeInfo) : Prop :=
  UnionOf g o ∧ o.sum = groupSum g ∧ o.mean = F64.div (groupSum g) (F64.ofInt (groupSize g))

theorem groupSum_snoc {g : List TimeInfo} (hg : g ≠ []) (b : TimeInfo) :
    groupSum (g ++ [b]) = F64.add (groupSum g) b.sum := by
  cases g with
  | nil => exact absurd rfl hg
  | cons a g => simp [groupSum, List.foldl_append]

theorem _root_.Verif.Spec.Chained.ne_nil {e : ℚ} {g : List TimeInfo} (h : Chained e g) : g ≠ [] := by
  cases h <;> simp

theorem flush_written (m : Nat) {g : List TimeInfo} {cur : TimeInfo} (h : UnionOf g cur) (hs : cur.sum = groupSum g) :
    List.Forall₂ Written ([g].filter fun g => decide (m ≤ groupSize g)) (cur.flush m) := by
  have hlen : cur.idx.length = groupSize g := by rw [h.idx]; rfl
  unfold TimeInfo.flush
  rw [hlen]
  by_cases hm : m ≤ groupSize g
  · rw [if_pos hm]
    simp only [List.filter_cons, hm, decide_true, if_true, List.filter_nil]
    refine List.Forall₂.cons ⟨⟨h.idx, h.tmin, h.tmax⟩, hs, ?_⟩ List.Forall₂.nil
    rw [hs]
  · rw [if_neg hm]
    simp [hm]

/-- The loop cuts its input into groups. -/
theorem mergeGo_groups {e : ℚ} (he : FiniteDouble e) (m : Nat) : ∀ (rest : List TimeInfo) (cur : TimeInfo) (g : List TimeInfo),
    UnionOf g cur → cur.sum = groupSum g → Chained e g → (∀ a ∈ g ++ rest, FiniteSpan a) →
    (g ++ rest).Pairwise (fun a b => val a.tmin ≤ val b.tmin) →
    ∃ G : List (List TimeInfo), G.flatten = g ++ rest ∧ (∀ h ∈ G, Chained e h) ∧ G.Pairwise (Apart e) ∧
      List.Forall₂ Written (G.filter fun g => decide (m ≤ groupSize g)) (mergeGo (.fin e) m cur rest)
  | [], cur, g, hu, hs, hc, _, _ =>
    ⟨[g], by simp, by simpa using hc, by simp, flush_written m hu hs⟩
  | next :: rest, cur, g, hu, hs, hc, hf, hp => by
    have hfg : ∀ a ∈ g, FiniteSpan a := fun a ha => hf a (by simp [ha])
    have hfn : FiniteSpan next := hf next (by simp)
    have hfc := hu.finite hfg
    unfold mergeGo
    by_cases hn : cur.near (.fin e) next = true
    · rw [if_pos hn]
      obtain ⟨a, ha, ea⟩ := hu.tmax.1
      have ht : Touch e a next := by
        have := near_true hfc hfn hn
        unfold Touch at this ⊢
        rwa [ea] at this
      have happ : g ++ next :: rest = (g ++ [next]) ++ rest := by simp
      obtain ⟨G, h1, h2, h3, h4⟩ := mergeGo_groups he m rest (cur.join next) (g ++ [next]) (hu.snoc hfg hfn)
        (by rw [groupSum_snoc hc.ne_nil, ← hs]; rfl) (.snoc g a next hc ha ht) (happ ▸ hf) (happ ▸ hp)
      exact ⟨G, by rw [h1, happ], h2, h3, h4⟩
    · rw [if_neg hn]
      have hn' : cur.near (.fin e) next = false := by simpa using hn
      have hgap := near_false he hfc hfn hn'
      obtain ⟨-, hp2, hp3⟩ := List.pairwise_append.mp hp
      obtain ⟨G, h1, h2, h3, h4⟩ := mergeGo_groups he m rest next [next]
        ⟨by simp, ⟨⟨next, by simp, rfl⟩, by simp⟩, ⟨⟨next, by simp, rfl⟩, by simp⟩⟩ rfl (.one next)
        (fun a ha => hf a (by simp at ha ⊢; tauto)) hp2
      refine ⟨g :: G, by simp [h1], ?_, ?_, ?_⟩
      · intro h hh
        rcases List.mem_cons.mp hh with rfl | hh
        · exact hc
        · exact h2 h hh
      · refine List.Pairwise.cons ?_ h3
        intro h hh a ha b hb
        have hb' : b ∈ next :: rest := by
          have : b ∈ G.flatten := List.mem_flatten.mpr ⟨h, hh, hb⟩
          rw [h1] at this; simpa using this
        have h5 : val next.tmin ≤ val b.tmin := by
          rcases List.mem_cons.mp hb' with rfl | hb'
          · exact le_refl _
          · exact (List.pairwise_cons.mp hp2).1 b hb'
        have := hu.tmax.2 a ha
        linarith
      · have : (g :: G).filter (fun g => decide (m ≤ groupSize g)) =
            [g].filter (fun g => decide (m ≤ groupSize g)) ++ G.filter (fun g => decide (m ≤ groupSize g)) := by
          rw [← List.filter_append]; rfl
        rw [this]
        exact List.rel_append (flush_written m hu hs) h4

/-- C55.  `mergeTimeClusters1D` sorts the clusters by their start and cuts them into groups: within a group each cluster
touches an earlier one, different groups are more than `eps_time` apart, and what is written is the union, with its mean,
of each group that has enough points. -/
theorem c55_groups (c : DbCtx) (e : ℚ) (he : FiniteDouble e) (hc : c.epsTime = .fin e) (hsort : SortsByStart c.sort)
    (infos : List TimeInfo) (hne : infos ≠ []) (hf : ∀ i ∈ infos, FiniteSpan i) :
    ∃ (G : List (List TimeInfo)) (out : List TimeInfo), mergeTimeClusters1D c infos = .ok out ∧
      G.flatten = c.sort infos ∧ G.flatten.Perm infos ∧ (∀ g ∈ G, Chained e g) ∧ G.Pairwise (Apart e) ∧
      List.Forall₂ Written (G.filter fun g => decide (c.minTime ≤ groupSize g)) out := by
  obtain ⟨hperm, hsorted⟩ := hsort infos hf
  unfold mergeTimeClusters1D
  match hs : c.sort infos with
  | [] => rw [hs] at hperm; exact absurd hperm.symm.eq_nil hne
  | first :: rest =>
    rw [hs] at hperm hsorted
    obtain ⟨G, h1, h2, h3, h4⟩ := mergeGo_groups he c.minTime rest first [first]
      ⟨by simp, ⟨⟨first, by simp, rfl⟩, by simp⟩, ⟨⟨first, by simp, rfl⟩, by simp⟩⟩ rfl (.one first)
      (fun a ha => hf a (hperm.mem_iff.mp ha)) hsorted
    refine ⟨G, _, rfl, h1, h1 ▸ hperm, h2, h3, ?_⟩
    rw [hc]; exact h4

/-- Called on nothing it reads the first of no clusters; `fit` does not do that. -/
theorem c55_empty (c : DbCtx) (hsort : SortsByStart c.sort) : mergeTimeClusters1D c [] = .ub .oobRead := by
  have := (hsort [] (by simp)).1.eq_nil
  simp [mergeTimeClusters1D, this]

theorem written_flatMap {A : List (List TimeInfo)} {out : List TimeInfo} (h : List.Forall₂ Written A out) :
    out.flatMap TimeInfo.idx = A.flatten.flatMap TimeInfo.idx := by
  induction h with
  | nil => rfl
  | cons h _ ih => simp [h.1.idx, ih]

theorem written_pairwise {e : ℚ} {A : List (List TimeInfo)} {out : List TimeInfo} (h : List.Forall₂ Written A out)
    (hp : A.Pairwise (Apart e)) : out.Pairwise fun a b => val a.tmax + e < val b.tmin := by
  induction h with
  | nil => exact List.Pairwise.nil
  | @cons g o A out h hs ih =>
    obtain ⟨hp1, hp2⟩ := List.pairwise_cons.mp hp
    refine List.Pairwise.cons ?_ (ih hp2)
    intro b hb
    obtain ⟨g', hg', hw⟩ : ∃ g' ∈ A, Written g' b := by
      clear ih hp hp1 hp2
      induction hs with
      | nil => simp at hb
      | @cons g1 o1 A1 out1 h1 _ ih1 =>
        rcases List.mem_cons.mp hb with rfl | hb
        · exact ⟨g1, by simp, h1⟩
        · obtain ⟨g', h2, h3⟩ := ih1 hb
          exact ⟨g', by simp [h2], h3⟩
    obtain ⟨a, ha, ea⟩ := h.1.tmax.1
    obtain ⟨a', ha', ea'⟩ := hw.1.tmin.1
    rw [ea, ea']
    exact hp1 g' hg' a ha a' ha'

theorem written_mem {A : List (List TimeInfo)} {out : List TimeInfo} (h : List.Forall₂ Written A out) :
    ∀ o ∈ out, ∃ g ∈ A, Written g o := by
  induction h with
  | nil => simp
  | @cons g1 o1 A1 out1 h1 _ ih1 =>
    intro o ho
    rcases List.mem_cons.mp ho with rfl | ho
    · exact ⟨g1, by simp, h1⟩
    · obtain ⟨g', h2, h3⟩ := ih1 o ho
      exact ⟨g', by simp [h2], h3⟩

theorem written_mem' {A : List (List TimeInfo)} {out : List TimeInfo} (h : List.Forall₂ Written A out) :
    ∀ g ∈ A, ∃ o ∈ out, Written g o := by
  induction h with
  | nil => simp
  | @cons g1 o1 A1 out1 h1 _ ih1 =>
    intro g hg
    rcases List.mem_cons.mp hg with rfl | hg
    · exact ⟨o1, by simp, h1⟩
    · obtain ⟨g', h2, h3⟩ := ih1 g hg
      exact ⟨g', by simp [h2], h3⟩

theorem flatten_filter_sublist {α : Type} (p : List α → Bool) (G : List (List α)) :
    ((G.filter p).flatten).Sublist G.flatten := (List.filter_sublist).flatten

/-- C55, as stated: the written clusters come in order of time, more than `eps_time` apart, each with at least
`min_points_time` points; their points are points of the input, each as often as there at most; and a point is lost only
with a whole group of fewer than `min_points_time` points. -/
theorem c55_partition (c : DbCtx) (e : ℚ) (he : FiniteDouble e) (hc : c.epsTime = .fin e) (hsort : SortsByStart c.sort)
    (infos : List TimeInfo) (hne : infos ≠ []) (hf : ∀ i ∈ infos, FiniteSpan i) :
    ∃ out, mergeTimeClusters1D c infos = .ok out ∧
      (out.Pairwise fun a b => val a.tmax + e < val b.tmin) ∧
      (∀ o ∈ out, c.minTime ≤ o.idx.length) ∧
      (out.flatMap TimeInfo.idx).Subperm (infos.flatMap TimeInfo.idx) ∧
      (∀ i ∈ infos, (∃ o ∈ out, i.idx ⊆ o.idx) ∨
        ∃ g : List TimeInfo, i ∈ g ∧ Chained e g ∧ groupSize g < c.minTime ∧
          ∀ b ∈ infos, b ∈ g ∨ val i.tmax + e < val b.tmin ∨ val b.tmax + e < val i.tmin) := by
  obtain ⟨G, out, h1, _, h3, h4, h5, h6⟩ := c55_groups c e he hc hsort infos hne hf
  refine ⟨out, h1, written_pairwise h6 (h5.sublist List.filter_sublist), ?_, ?_, ?_⟩
  · intro o ho
    obtain ⟨g, hg, hw⟩ := written_mem h6 o ho
    have := (List.mem_filter.mp hg).2
    rw [hw.1.idx]
    simpa [groupSize] using this
  · rw [written_flatMap h6]
    have hsub := (flatten_filter_sublist (fun g => decide (c.minTime ≤ groupSize g)) G).flatMap TimeInfo.idx
    exact hsub.subperm.trans (h3.flatMap_right _).subperm
  · intro i hi
    obtain ⟨g, hg, hig⟩ := List.mem_flatten.mp (h3.mem_iff.mpr hi)
    by_cases hm : c.minTime ≤ groupSize g
    · left
      obtain ⟨o, ho, hw⟩ := written_mem' h6 g (List.mem_filter.mpr ⟨hg, by simpa using hm⟩)
      refine ⟨o, ho, ?_⟩
      rw [hw.1.idx]
      intro x hx
      exact List.mem_flatMap.mpr ⟨i, hig, hx⟩
    · right
      refine ⟨g, hig, h4 g hg, by omega, ?_⟩
      intro b hb
      obtain ⟨g', hg', hbg⟩ := List.mem_flatten.mp (h3.mem_iff.mpr hb)
      by_cases hgg : g' = g
      · left; rwa [hgg] at hbg
      · right
        have : Std.Symm fun x y => Apart e x y ∨ Apart e y x := ⟨fun _ _ h => h.symm⟩
        have h7 : G.Pairwise fun x y => Apart e x y ∨ Apart e y x := h5.imp fun h => Or.inl h
        rcases h7.forall hg hg' (Ne.symm hgg) with h | h
        · exact Or.inl (h i hig b hbg)
        · exact Or.inr (h b hbg i hig)

end Verif.Props
