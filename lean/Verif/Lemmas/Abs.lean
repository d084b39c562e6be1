import Verif.Model.Abs
import Verif.Spec.Cluster

/-! # Invariant of the adaptive box search -/

namespace Verif

open Verif.Spec

theorem members_snoc (hs : List Hit) (ls : List Int) (h : Hit) (l x : Int) (hl : hs.length = ls.length) :
    members (hs ++ [h]) (ls ++ [l]) x = members hs ls x ++ if l = x then [h] else [] := by
  unfold members
  rw [List.zip_append hl, List.filter_append, List.map_append]
  congr 1
  by_cases e : l = x <;> simp [e]

/-- The slot describes the list of hits of its cluster. -/
structure SlotOf (M : List Hit) (s : Slot) : Prop where
  ne : M ≠ []
  size : s.size = M.length
  time : ∀ h, M.head? = some h → h.spidertimeNs.toU64? = some s.time
  xmin : IsLeastIn s.xmin (M.map Hit.x)
  xmax : IsGreatestIn s.xmax (M.map Hit.x)
  ymin : IsLeastIn s.ymin (M.map Hit.y)
  ymax : IsGreatestIn s.ymax (M.map Hit.y)

theorem isLeastIn_snoc {v a : Int} {l : List Int} (h : IsLeastIn v l) : IsLeastIn (min v a) (l ++ [a]) := by
  refine ⟨?_, ?_⟩
  · rcases le_total v a with hva | hva
    · rw [min_eq_left hva]; simp [h.1]
    · rw [min_eq_right hva]; simp
  · intro b hb
    rcases List.mem_append.mp hb with hb | hb
    · exact le_trans (min_le_left _ _) (h.2 b hb)
    · rw [List.mem_singleton.mp hb]; exact min_le_right _ _

theorem isGreatestIn_snoc {v a : Int} {l : List Int} (h : IsGreatestIn v l) :
    IsGreatestIn (max v a) (l ++ [a]) := by
  refine ⟨?_, ?_⟩
  · rcases le_total v a with hva | hva
    · rw [max_eq_right hva]; simp
    · rw [max_eq_left hva]; simp [h.1]
  · intro b hb
    rcases List.mem_append.mp hb with hb | hb
    · exact le_trans (h.2 b hb) (le_max_left _ _)
    · rw [List.mem_singleton.mp hb]; exact le_max_right _ _

theorem SlotOf.grow {M : List Hit} {s : Slot} (h : SlotOf M s) (a : Hit) : SlotOf (M ++ [a]) (s.grow a) where
  ne := by simp
  size := by simp [Slot.grow, h.size]
  time := by
    intro b hb
    have hM := h.ne
    cases M with
    | nil => exact absurd rfl hM
    | cons c M => exact h.time b (by simpa using hb)
  xmin := by rw [List.map_append]; exact isLeastIn_snoc h.xmin
  xmax := by rw [List.map_append]; exact isGreatestIn_snoc h.xmax
  ymin := by rw [List.map_append]; exact isLeastIn_snoc h.ymin
  ymax := by rw [List.map_append]; exact isGreatestIn_snoc h.ymax

theorem openSlot_cases (l : Int) (h : Hit) : openSlot l h = .ub .floatToInt ∧ h.spidertimeNs.toU64? = none ∨
    ∃ t, h.spidertimeNs.toU64? = some t ∧ openSlot l h = .ok ⟨h.x, h.y, h.x, h.y, t, l, 1⟩ := by
  unfold openSlot
  cases e : h.spidertimeNs.toU64? with
  | none => left; exact ⟨rfl, rfl⟩
  | some t => right; exact ⟨t, rfl, rfl⟩

theorem slotOf_open {l : Int} {h : Hit} {s : Slot} (ho : openSlot l h = .ok s) :
    SlotOf [h] s ∧ s.label = l ∧ s.size = 1 := by
  rcases openSlot_cases l h with ⟨e, _⟩ | ⟨t, ht, e⟩
  · rw [e] at ho; simp at ho
  · rw [e] at ho
    injection ho with ho
    subst ho
    refine ⟨⟨by simp, rfl, ?_, ?_, ?_, ?_, ?_⟩, rfl, rfl⟩
    · intro a ha
      simp only [List.head?_cons, Option.some.injEq] at ha
      subst ha; exact ht
    all_goals simp [IsLeastIn, IsGreatestIn]

/-- What the loop over the slots does when it finds a place. -/
theorem placeIn_some (p : AbsParams) (h : Hit) (ss ss' : List Slot) (l : Int)
    (hp : placeIn p h ss = .ok (some (ss', l))) :
    ∃ j s s', ss[j]? = some s ∧ ss' = ss.set j s' ∧ l = s.label ∧
      (∀ i < j, ∀ si, ss[i]? = some si → si.size ≠ 0 ∧ si.accepts p h = false) ∧
      ((s.size = 0 ∧ openSlot s.label h = .ok s') ∨ (s.size ≠ 0 ∧ s.accepts p h = true ∧ s' = s.grow h)) := by
  induction ss generalizing ss' l with
  | nil => simp [placeIn] at hp
  | cons s ss ih =>
    rw [placeIn] at hp
    split_ifs at hp with h0 ha
    · cases ho : openSlot s.label h with
      | ok s' =>
        rw [ho] at hp
        simp only [Res.ok.injEq, Option.some.injEq, Prod.mk.injEq] at hp
        exact ⟨0, s, s', rfl, by simp [hp.1.symm], hp.2.symm, by simp, Or.inl ⟨h0, ho⟩⟩
      | throws e => rw [ho] at hp; simp at hp
      | ub u => rw [ho] at hp; simp at hp
    · simp only [Res.ok.injEq, Option.some.injEq, Prod.mk.injEq] at hp
      exact ⟨0, s, s.grow h, rfl, by simp [hp.1.symm], hp.2.symm, by simp, Or.inr ⟨h0, ha, rfl⟩⟩
    · cases hr : placeIn p h ss with
      | ok r =>
        cases r with
        | none => rw [hr] at hp; simp at hp
        | some r =>
          rw [hr] at hp
          simp only [Res.ok.injEq, Option.some.injEq, Prod.mk.injEq] at hp
          obtain ⟨j, sj, sj', e1, e2, e3, e4, e5⟩ := ih r.1 r.2 hr
          refine ⟨j + 1, sj, sj', by simpa using e1, by rw [← hp.1, e2]; simp, by rw [← hp.2, e3], ?_, e5⟩
          intro i hi si hsi
          cases i with
          | zero =>
            simp only [List.getElem?_cons_zero, Option.some.injEq] at hsi
            subst hsi
            exact ⟨h0, by simpa using ha⟩
          | succ i => exact e4 i (by omega) si (by simpa using hsi)
      | throws e => rw [hr] at hp; simp at hp
      | ub u => rw [hr] at hp; simp at hp

theorem placeIn_none (p : AbsParams) (h : Hit) (ss : List Slot) (hp : placeIn p h ss = .ok none) :
    ∀ s ∈ ss, s.size ≠ 0 ∧ s.accepts p h = false := by
  induction ss with
  | nil => simp
  | cons s ss ih =>
    rw [placeIn] at hp
    split_ifs at hp with h0 ha
    · cases ho : openSlot s.label h <;> rw [ho] at hp <;> simp at hp
    · simp at hp
    · cases hr : placeIn p h ss with
      | ok r =>
        cases r with
        | none =>
          intro a ham
          rcases List.mem_cons.mp ham with rfl | ham
          · exact ⟨h0, by simpa using ha⟩
          · exact ih hr a ham
        | some r => rw [hr] at hp; simp at hp
      | throws e => rw [hr] at hp; simp at hp
      | ub u => rw [hr] at hp; simp at hp

/-- The loop over the slots can only fail in the conversion of the hit's time. -/
theorem placeIn_ok (p : AbsParams) (h : Hit) (ss : List Slot) :
    (∃ r, placeIn p h ss = .ok r) ∨ (placeIn p h ss = .ub .floatToInt ∧ h.spidertimeNs.toU64? = none) := by
  induction ss with
  | nil => left; exact ⟨none, rfl⟩
  | cons s ss ih =>
    rw [placeIn]
    split_ifs with h0 ha
    · rcases openSlot_cases s.label h with ⟨e, e'⟩ | ⟨t, _, e⟩
      · right; rw [e]; exact ⟨rfl, e'⟩
      · left; rw [e]; exact ⟨_, rfl⟩
    · left; exact ⟨_, rfl⟩
    · rcases ih with ⟨r, hr⟩ | ⟨hr, hn⟩
      · left; rw [hr]; cases r <;> exact ⟨_, rfl⟩
      · right; rw [hr]; exact ⟨rfl, hn⟩

theorem fitStep_ok (p : AbsParams) (i : Nat) (h : Hit) (st : FitState) :
    (∃ r, fitStep p i h st = .ok r) ∨ (fitStep p i h st = .ub .floatToInt ∧ h.spidertimeNs.toU64? = none) := by
  unfold fitStep
  rcases placeIn_ok p h st.slots with ⟨r, hr⟩ | ⟨hr, hn⟩
  · rw [hr]
    cases r with
    | some r => left; exact ⟨_, rfl⟩
    | none =>
      rcases openSlot_cases st.maxLabel h with ⟨e, e'⟩ | ⟨t, _, e⟩
      · right; simp only [e]; exact ⟨trivial, e'⟩
      · left; simp only [e]; exact ⟨_, rfl⟩
  · right; rw [hr]; exact ⟨rfl, hn⟩

/-- A hit joins a cluster whose slot accepts it, or starts a cluster. -/
def Joined (p : AbsParams) (M : List Hit) (h : Hit) : Prop :=
  M = [] ∨ ∃ s, SlotOf M s ∧ s.accepts p h = true

/-- Invariant of `ABS::fit` after the hits `done`, which got the labels `ls`; `k` labels are in use. -/
structure FitInv (n : Nat) (p : AbsParams) (done : List Hit) (ls : List Int) (k : Nat) (slots : List Slot)
    (maxLabel : Int) : Prop where
  len : done.length = ls.length
  npos : 0 < n
  nslots : slots.length = n
  max : maxLabel = max (k : Int) n
  lt : ∀ l ∈ ls, 0 ≤ l ∧ l < k
  growth : ∀ i (hi : i < ls.length) (l : Int), 0 ≤ l → l < ls[i] → ∃ j, ∃ hj : j < i, ls[j] = l
  used : ∀ l : Int, 0 ≤ l → l < k → l ∈ ls
  empty : ∀ (i : Nat) (s : Slot), slots[i]? = some s → (s.size = 0 ↔ k ≤ i)
  emptyLabel : ∀ (i : Nat) (s : Slot), slots[i]? = some s → s.size = 0 → s.label = i
  fullLabel : ∀ (i : Nat) (s : Slot), slots[i]? = some s → s.size ≠ 0 → 0 ≤ s.label ∧ s.label < k
  distinct : ∀ (i j : Nat) (s t : Slot), slots[i]? = some s → slots[j]? = some t → s.label = t.label → i = j
  slotOf : ∀ s ∈ slots, s.size ≠ 0 → SlotOf (members done ls s.label) s
  newest : 0 < k → ∃ s ∈ slots, s.size ≠ 0 ∧ s.label = (k : Int) - 1
  joined : ∀ i (hi : i < done.length) (hi' : i < ls.length),
    Joined p (members (done.take i) (ls.take i) ls[i]) done[i]

theorem members_nil_of_not_mem {hs : List Hit} {ls : List Int} {l : Int} (h : l ∉ ls) : members hs ls l = [] := by
  unfold members
  rw [List.map_eq_nil_iff, List.filter_eq_nil_iff]
  intro a ha hal
  have := (List.of_mem_zip ha).2
  simp only [decide_eq_true_eq] at hal
  exact h (hal ▸ this)

theorem initSlots_get {n : Nat} (i : Nat) (s : Slot) (h : (initSlots n)[i]? = some s) :
    i < n ∧ s = ⟨0, 0, 0, 0, 0, (i : Int), 0⟩ := by
  unfold initSlots at h
  rw [List.getElem?_map] at h
  rcases Nat.lt_or_ge i n with hi | hi
  · rw [List.getElem?_range hi] at h
    simp only [Option.map_some, Option.some.injEq] at h
    exact ⟨hi, h.symm⟩
  · rw [List.getElem?_eq_none (by simpa using hi)] at h
    simp at h

theorem FitInv.init {n : Nat} (hn : 0 < n) (p : AbsParams) : FitInv n p [] [] 0 (initSlots n) n where
  len := rfl
  npos := hn
  nslots := by simp [initSlots]
  max := by omega
  lt := by simp
  growth := by simp
  used := by intro l h1 h2; omega
  empty := by
    intro i s h
    rw [(initSlots_get i s h).2]; simp
  emptyLabel := by
    intro i s h _
    rw [(initSlots_get i s h).2]
  fullLabel := by
    intro i s h h0
    rw [(initSlots_get i s h).2] at h0
    simp at h0
  distinct := by
    intro i j s t hi hj h
    rw [(initSlots_get i s hi).2, (initSlots_get j t hj).2] at h
    simpa using h
  slotOf := by
    intro s hs h0
    obtain ⟨i, hi, e⟩ := List.getElem_of_mem hs
    rw [(initSlots_get i s (List.getElem?_eq_some_iff.mpr ⟨hi, e⟩)).2] at h0
    simp at h0
  newest := by intro h; omega
  joined := by simp

theorem joined_snoc {p : AbsParams} {done : List Hit} {ls : List Int} (hlen : done.length = ls.length) (h : Hit)
    (l : Int) (hj : ∀ i (hi : i < done.length) (hi' : i < ls.length),
      Joined p (members (done.take i) (ls.take i) ls[i]) done[i])
    (hnew : Joined p (members done ls l) h) (i : Nat) (hi : i < (done ++ [h]).length)
    (hi' : i < (ls ++ [l]).length) :
    Joined p (members ((done ++ [h]).take i) ((ls ++ [l]).take i) (ls ++ [l])[i]) (done ++ [h])[i] := by
  have hi2 : i ≤ done.length := by simp at hi; omega
  rw [List.take_append_of_le_length hi2, List.take_append_of_le_length (by omega)]
  rcases Nat.lt_or_ge i done.length with hlt | hge
  · rw [List.getElem_append_left hlt, List.getElem_append_left (by omega)]
    exact hj i hlt (by omega)
  · have e : i = done.length := by omega
    subst e
    rw [List.take_length]
    simp only [hlen, List.take_length, List.getElem_concat_length]
    exact hnew

theorem growth_snoc {ls : List Int} (l : Int) {k : Nat}
    (hg : ∀ i (hi : i < ls.length) (l : Int), 0 ≤ l → l < ls[i] → ∃ j, ∃ hj : j < i, ls[j] = l)
    (hu : ∀ l : Int, 0 ≤ l → l < k → l ∈ ls) (hl : l ≤ k) (i : Nat) (hi : i < (ls ++ [l]).length) (x : Int)
    (h0 : 0 ≤ x) (hx : x < (ls ++ [l])[i]) : ∃ j, ∃ hj : j < i, (ls ++ [l])[j] = x := by
  rcases Nat.lt_or_ge i ls.length with hlt | hge
  · rw [List.getElem_append_left hlt] at hx
    obtain ⟨j, hj, e⟩ := hg i hlt x h0 hx
    exact ⟨j, hj, by rw [List.getElem_append_left (by omega)]; exact e⟩
  · have e : i = ls.length := by simp at hi; omega
    subst e
    simp only [List.getElem_concat_length] at hx
    obtain ⟨j, hj, e⟩ := List.getElem_of_mem (hu x h0 (by omega))
    exact ⟨j, hj, by rw [List.getElem_append_left hj]; exact e⟩

theorem minLoop_lt (ss : List Slot) (j t b : Nat) (hb : b < j + ss.length) : minLoop ss j t b < j + ss.length := by
  induction ss generalizing j t b with
  | nil => simpa [minLoop] using hb
  | cons s ss ih =>
    rw [minLoop]
    simp only [List.length_cons] at *
    split_ifs
    · have := ih (j + 1) s.time j (by omega); omega
    · have := ih (j + 1) t b (by omega); omega

theorem minIndex_lt (ss : List Slot) (h : ss ≠ []) : minIndex ss < ss.length := by
  cases ss with
  | nil => exact absurd rfl h
  | cons s ss =>
    have := minLoop_lt ss 1 s.time 0 (by omega)
    simp only [minIndex, List.length_cons]
    omega

/-- One iteration keeps the invariant. -/
theorem FitInv.step {n : Nat} {p : AbsParams} {done : List Hit} {ls : List Int} {k : Nat} {st st' : FitState} {i : Nat}
    {h : Hit} (inv : FitInv n p done ls k st.slots st.maxLabel) (hs : fitStep p i h st = .ok st') :
    ∃ l k', st'.labels = st.labels.set i l ∧ FitInv n p (done ++ [h]) (ls ++ [l]) k' st'.slots st'.maxLabel ∧
      ((l = k ∧ k' = k + 1 ∧ ∀ s ∈ st.slots, s.size ≠ 0 → s.accepts p h = false) ∨
       (k' = k ∧ ∃ s ∈ st.slots, s.size ≠ 0 ∧ s.label = l ∧ s.accepts p h = true ∧
         ∀ (j i : Nat) (s' : Slot), st.slots[j]? = some s → i < j → st.slots[i]? = some s' → s'.size ≠ 0 ∧ s'.accepts p h = false)) := by
  unfold fitStep at hs
  cases hp : placeIn p h st.slots with
  | throws e => rw [hp] at hs; simp at hs
  | ub u => rw [hp] at hs; simp at hs
  | ok r =>
    rw [hp] at hs
    cases r with
    | some r =>
      simp only [Res.ok.injEq] at hs
      subst hs
      obtain ⟨j, s, s', hj, hset, hl, hbefore, hcase⟩ := placeIn_some p h st.slots r.1 r.2 hp
      have hjlt : j < st.slots.length := (List.getElem?_eq_some_iff.mp hj).1
      have hsm : s ∈ st.slots := List.mem_of_getElem? hj
      rcases hcase with ⟨h0, hopen⟩ | ⟨h0, hacc, hgrow⟩
      · -- an empty slot is opened
        obtain ⟨hso, hlab, hsz⟩ := slotOf_open hopen
        have hkj : k ≤ j := (inv.empty j s hj).mp h0
        have hjk : j = k := by
          by_contra hne
          have hkl : k < j := by omega
          obtain ⟨sk, hsk⟩ : ∃ sk, st.slots[k]? = some sk :=
            ⟨_, List.getElem?_eq_some_iff.mpr ⟨by omega, rfl⟩⟩
          exact (hbefore k hkl sk hsk).1 ((inv.empty k sk hsk).mpr (Nat.le_refl _))
        subst hjk
        have hslab : s.label = (j : Int) := inv.emptyLabel j s hj h0
        have hnum : j < n := by rw [← inv.nslots]; exact hjlt
        have hnot : (j : Int) ∉ ls := fun hm => by have := (inv.lt _ hm).2; omega
        have hMn : members done ls (j : Int) = [] := members_nil_of_not_mem hnot
        refine ⟨(j : Int), j + 1, by rw [hl, hslab], ?_, Or.inl ⟨rfl, rfl, ?_⟩⟩
        · rw [hset]
          have hget : ∀ i t, (st.slots.set j s')[i]? = some t → (i = j ∧ t = s') ∨ (i ≠ j ∧ st.slots[i]? = some t) := by
            intro i t ht
            by_cases e : i = j
            · subst e
              rw [List.getElem?_set_self hjlt] at ht
              left; exact ⟨rfl, by simpa using ht.symm⟩
            · rw [List.getElem?_set_ne (Ne.symm e)] at ht
              right; exact ⟨e, ht⟩
          constructor
          case len => simp [inv.len]
          case npos => exact inv.npos
          case nslots => rw [List.length_set]; exact inv.nslots
          case max => rw [inv.max]; push_cast; omega
          case lt =>
            intro x hx
            rcases List.mem_append.mp hx with hx | hx
            · have := inv.lt x hx; omega
            · rw [List.mem_singleton.mp hx]; omega
          case growth => exact growth_snoc (k := j) _ inv.growth inv.used (by omega)
          case used =>
            intro x h1 h2
            by_cases e : x = j
            · subst e; simp
            · exact List.mem_append_left _ (inv.used x h1 (by omega))
          case empty =>
            intro i t ht
            rcases hget i t ht with ⟨rfl, rfl⟩ | ⟨hne, ht⟩
            · rw [hsz]; omega
            · rw [inv.empty i t ht]; omega
          case emptyLabel =>
            intro i t ht hz
            rcases hget i t ht with ⟨rfl, rfl⟩ | ⟨hne, ht⟩
            · omega
            · exact inv.emptyLabel i t ht hz
          case fullLabel =>
            intro i t ht hz
            rcases hget i t ht with ⟨rfl, rfl⟩ | ⟨hne, ht⟩
            · rw [hlab, hslab]; omega
            · have := inv.fullLabel i t ht hz; omega
          case distinct =>
            intro i i' t t' ht ht' he
            rcases hget i t ht with ⟨rfl, rfl⟩ | ⟨hne, ht2⟩ <;> rcases hget i' t' ht' with ⟨rfl, rfl⟩ | ⟨hne', ht2'⟩
            · rfl
            · rw [hlab] at he; exact inv.distinct i i' s t' hj ht2' he
            · rw [hlab] at he; exact inv.distinct i i' t s ht2 hj he
            · exact inv.distinct i i' t t' ht2 ht2' he
          case slotOf =>
            intro t htm hz
            obtain ⟨i, hi, e⟩ := List.getElem_of_mem htm
            rcases hget i t (List.getElem?_eq_some_iff.mpr ⟨hi, e⟩) with ⟨rfl, rfl⟩ | ⟨hne, ht⟩
            · rw [hlab, hslab, members_snoc _ _ _ _ _ inv.len, if_pos rfl, hMn, List.nil_append]
              exact hso
            · have hne2 : (j : Int) ≠ t.label := by
                intro e2
                exact hne (inv.distinct i j t s ht hj (by rw [← e2, hslab]))
              rw [members_snoc _ _ _ _ _ inv.len, if_neg hne2, List.append_nil]
              exact inv.slotOf t (List.mem_of_getElem? ht) hz
          case newest =>
            intro _
            exact ⟨s', List.mem_of_getElem? (List.getElem?_set_self hjlt), by omega, by rw [hlab, hslab]; push_cast; ring⟩
          case joined => exact joined_snoc inv.len h _ inv.joined (Or.inl hMn)
        · intro t htm hz
          obtain ⟨i, hi, e⟩ := List.getElem_of_mem htm
          have ht := List.getElem?_eq_some_iff.mpr ⟨hi, e⟩
          have hik : ¬ j ≤ i := fun hk => hz ((inv.empty i t ht).mpr hk)
          exact (hbefore i (by omega) t ht).2
      · -- an open slot accepts the hit
        have hso := inv.slotOf s hsm h0
        have hfl := inv.fullLabel j s hj h0
        refine ⟨s.label, k, by rw [hl], ?_, Or.inr ⟨rfl, s, hsm, h0, rfl, hacc, ?_⟩⟩
        · rw [hset, hgrow]
          have hget : ∀ i t, (st.slots.set j (s.grow h))[i]? = some t →
              (i = j ∧ t = s.grow h) ∨ (i ≠ j ∧ st.slots[i]? = some t) := by
            intro i t ht
            by_cases e : i = j
            · subst e
              rw [List.getElem?_set_self hjlt] at ht
              left; exact ⟨rfl, by simpa using ht.symm⟩
            · rw [List.getElem?_set_ne (Ne.symm e)] at ht
              right; exact ⟨e, ht⟩
          constructor
          case len => simp [inv.len]
          case npos => exact inv.npos
          case nslots => rw [List.length_set]; exact inv.nslots
          case max => exact inv.max
          case lt =>
            intro x hx
            rcases List.mem_append.mp hx with hx | hx
            · exact inv.lt x hx
            · rw [List.mem_singleton.mp hx]; exact hfl
          case growth => exact growth_snoc _ inv.growth inv.used (by omega)
          case used => intro x h1 h2; exact List.mem_append_left _ (inv.used x h1 h2)
          case empty =>
            intro i t ht
            rcases hget i t ht with ⟨rfl, rfl⟩ | ⟨hne, ht⟩
            · have := inv.empty i s hj
              have hgs : (s.grow h).size = s.size + 1 := rfl
              omega
            · exact inv.empty i t ht
          case emptyLabel =>
            intro i t ht hz
            rcases hget i t ht with ⟨rfl, rfl⟩ | ⟨hne, ht⟩
            · have hgs : (s.grow h).size = s.size + 1 := rfl
              omega
            · exact inv.emptyLabel i t ht hz
          case fullLabel =>
            intro i t ht hz
            rcases hget i t ht with ⟨rfl, rfl⟩ | ⟨hne, ht⟩
            · exact hfl
            · exact inv.fullLabel i t ht hz
          case distinct =>
            intro i i' t t' ht ht' he
            rcases hget i t ht with ⟨rfl, rfl⟩ | ⟨hne, ht2⟩ <;> rcases hget i' t' ht' with ⟨rfl, rfl⟩ | ⟨hne', ht2'⟩
            · rfl
            · exact inv.distinct i i' s t' hj ht2' he
            · exact inv.distinct i i' t s ht2 hj he
            · exact inv.distinct i i' t t' ht2 ht2' he
          case slotOf =>
            intro t htm hz
            obtain ⟨i, hi, e⟩ := List.getElem_of_mem htm
            rcases hget i t (List.getElem?_eq_some_iff.mpr ⟨hi, e⟩) with ⟨rfl, rfl⟩ | ⟨hne, ht⟩
            · have e2 : (s.grow h).label = s.label := rfl
              rw [e2, members_snoc _ _ _ _ _ inv.len, if_pos rfl]
              exact hso.grow h
            · have hne2 : s.label ≠ t.label := fun e2 => hne (inv.distinct i j t s ht hj e2.symm)
              rw [members_snoc _ _ _ _ _ inv.len, if_neg hne2, List.append_nil]
              exact inv.slotOf t (List.mem_of_getElem? ht) hz
          case newest =>
            intro hk
            obtain ⟨t, htm, hz, htl⟩ := inv.newest hk
            obtain ⟨i, hi, e⟩ := List.getElem_of_mem htm
            have ht := List.getElem?_eq_some_iff.mpr ⟨hi, e⟩
            by_cases eij : i = j
            · subst eij
              have : t = s := by rw [hj] at ht; simpa using ht.symm
              subst this
              refine ⟨t.grow h, List.mem_of_getElem? (List.getElem?_set_self hjlt), ?_, htl⟩
              show t.size + 1 ≠ 0
              omega
            · exact ⟨t, List.mem_of_getElem? ((List.getElem?_set_ne (Ne.symm eij)).trans ht), hz, htl⟩
          case joined => exact joined_snoc inv.len h _ inv.joined (Or.inr ⟨s, hso, hacc⟩)
        · intro j' i' t hj' hi' ht
          have : j' = j := inv.distinct j' j s s hj' hj rfl
          subst this
          exact hbefore i' hi' t ht
    | none =>
      have hall := placeIn_none p h st.slots hp
      simp only at hs
      cases ho : openSlot st.maxLabel h with
      | throws e => rw [ho] at hs; simp at hs
      | ub u => rw [ho] at hs; simp at hs
      | ok s' =>
        rw [ho] at hs
        simp only [Res.ok.injEq] at hs
        subst hs
        obtain ⟨hso, hlab, hsz⟩ := slotOf_open ho
        have hk8 : n ≤ k := by
          by_contra hlt
          obtain ⟨sk, hsk⟩ : ∃ sk, st.slots[k]? = some sk :=
            ⟨_, List.getElem?_eq_some_iff.mpr ⟨by rw [inv.nslots]; omega, rfl⟩⟩
          exact (hall sk (List.mem_of_getElem? hsk)).1 ((inv.empty k sk hsk).mpr (Nat.le_refl _))
        have hmaxk : st.maxLabel = (k : Int) := by rw [inv.max]; omega
        have hne : st.slots ≠ [] := by
          intro e
          have := inv.nslots
          rw [e] at this
          have := inv.npos
          simp at *
          omega
        have hjlt := minIndex_lt st.slots hne
        have hnot : (k : Int) ∉ ls := fun hm => by have := (inv.lt _ hm).2; omega
        have hMn : members done ls (k : Int) = [] := members_nil_of_not_mem hnot
        generalize minIndex st.slots = j at hjlt ⊢
        obtain ⟨s, hj⟩ : ∃ s, st.slots[j]? = some s := ⟨_, List.getElem?_eq_some_iff.mpr ⟨hjlt, rfl⟩⟩
        refine ⟨(k : Int), k + 1, by rw [hmaxk], ?_, Or.inl ⟨rfl, rfl, fun s hs _ => (hall s hs).2⟩⟩
        have hget : ∀ i t, (st.slots.set j s')[i]? = some t → (i = j ∧ t = s') ∨ (i ≠ j ∧ st.slots[i]? = some t) := by
          intro i t ht
          by_cases e : i = j
          · subst e
            rw [List.getElem?_set_self hjlt] at ht
            left; exact ⟨rfl, by simpa using ht.symm⟩
          · rw [List.getElem?_set_ne (Ne.symm e)] at ht
            right; exact ⟨e, ht⟩
        have hfull : ∀ (i : Nat) (t : Slot), st.slots[i]? = some t → t.size ≠ 0 := fun i t ht => (hall t (List.mem_of_getElem? ht)).1
        constructor
        case len => simp [inv.len]
        case npos => exact inv.npos
        case nslots => rw [List.length_set]; exact inv.nslots
        case max =>
          show st.maxLabel + 1 = _
          rw [hmaxk]; push_cast; omega
        case lt =>
          intro x hx
          rcases List.mem_append.mp hx with hx | hx
          · have := inv.lt x hx; omega
          · rw [List.mem_singleton.mp hx]; omega
        case growth => exact growth_snoc (k := k) _ inv.growth inv.used (by omega)
        case used =>
          intro x h1 h2
          by_cases e : x = k
          · subst e; simp
          · exact List.mem_append_left _ (inv.used x h1 (by omega))
        case empty =>
          intro i t ht
          have hil : i < n := by
            have := (List.getElem?_eq_some_iff.mp ht).1
            rw [List.length_set, inv.nslots] at this
            exact this
          rcases hget i t ht with ⟨rfl, rfl⟩ | ⟨hne, ht⟩
          · rw [hsz]; omega
          · have := hfull i t ht; omega
        case emptyLabel =>
          intro i t ht hz
          rcases hget i t ht with ⟨rfl, rfl⟩ | ⟨hne, ht⟩
          · omega
          · exact absurd hz (hfull i t ht)
        case fullLabel =>
          intro i t ht hz
          rcases hget i t ht with ⟨rfl, rfl⟩ | ⟨hne, ht⟩
          · rw [hlab, hmaxk]; omega
          · have := inv.fullLabel i t ht hz; omega
        case distinct =>
          intro i i' t t' ht ht' he
          rcases hget i t ht with ⟨rfl, rfl⟩ | ⟨hne, ht2⟩ <;> rcases hget i' t' ht' with ⟨rfl, rfl⟩ | ⟨hne', ht2'⟩
          · rfl
          · have := inv.fullLabel i' t' ht2' (hfull _ _ ht2'); rw [hlab, hmaxk] at he; omega
          · have := inv.fullLabel i t ht2 (hfull _ _ ht2); rw [hlab, hmaxk] at he; omega
          · exact inv.distinct i i' t t' ht2 ht2' he
        case slotOf =>
          intro t htm hz
          obtain ⟨i, hi, e⟩ := List.getElem_of_mem htm
          rcases hget i t (List.getElem?_eq_some_iff.mpr ⟨hi, e⟩) with ⟨rfl, rfl⟩ | ⟨hne, ht⟩
          · rw [hlab, hmaxk, members_snoc _ _ _ _ _ inv.len, if_pos rfl, hMn, List.nil_append]
            exact hso
          · have hne2 : (k : Int) ≠ t.label := by
              have := inv.fullLabel i t ht hz; omega
            rw [members_snoc _ _ _ _ _ inv.len, if_neg hne2, List.append_nil]
            exact inv.slotOf t (List.mem_of_getElem? ht) hz
        case newest =>
          intro _
          exact ⟨s', List.mem_of_getElem? (List.getElem?_set_self hjlt), by omega, by rw [hlab, hmaxk]; push_cast; ring⟩
        case joined => exact joined_snoc inv.len h _ inv.joined (Or.inl hMn)

end Verif
