import Verif.Lemmas.AbsFit
import Mathlib.Data.Finset.Image

/-! # Which clusters stay open -/

namespace Verif

open Verif.Spec

theorem minLoop_spec (pre ss : List Slot) (t b : Nat) (hb : ∃ s, (pre ++ ss)[b]? = some s ∧ s.time = t)
    (hle : ∀ s ∈ pre, s.size ≠ 0 → t ≤ s.time) :
    ∃ s, (pre ++ ss)[minLoop ss pre.length t b]? = some s ∧ ∀ s' ∈ pre ++ ss, s'.size ≠ 0 → s.time ≤ s'.time := by
  induction ss generalizing pre t b with
  | nil =>
    obtain ⟨s, h1, h2⟩ := hb
    refine ⟨s, by simpa [minLoop] using h1, fun s' hs' hz => ?_⟩
    rw [h2]
    exact hle s' (by simpa using hs') hz
  | cons a ss ih =>
    rw [minLoop]
    have e : pre ++ a :: ss = (pre ++ [a]) ++ ss := by simp
    have el : (pre ++ [a]).length = pre.length + 1 := by simp
    by_cases hc : 0 < a.size ∧ a.time < t
    · rw [if_pos hc]
      have := ih (pre ++ [a]) a.time pre.length ⟨a, by simp, rfl⟩ (by
        intro s hs hz
        rcases List.mem_append.mp hs with hs | hs
        · exact le_trans hc.2.le (hle s hs hz)
        · rw [List.mem_singleton.mp hs])
      rw [el, ← e] at this
      exact this
    · rw [if_neg hc]
      have := ih (pre ++ [a]) t b (by rw [← e]; exact hb) (by
        intro s hs hz
        rcases List.mem_append.mp hs with hs | hs
        · exact hle s hs hz
        · rw [List.mem_singleton.mp hs] at hz ⊢
          by_contra hlt
          exact hc ⟨by omega, by omega⟩)
      rw [el, ← e] at this
      exact this

/-- The slot that is recycled is the one that was opened by the earliest hit. -/
theorem minIndex_spec (ss : List Slot) (h : ss ≠ []) (hfull : ∀ s ∈ ss, s.size ≠ 0) :
    ∃ s, ss[minIndex ss]? = some s ∧ ∀ s' ∈ ss, s.time ≤ s'.time := by
  cases ss with
  | nil => exact absurd rfl h
  | cons a ss =>
    obtain ⟨s, h1, h2⟩ := minLoop_spec [a] ss a.time 0 ⟨a, rfl, rfl⟩ (by simp)
    exact ⟨s, h1, fun s' hs' => h2 s' hs' (hfull s' hs')⟩

/-- Labels of the slots in use. -/
def openLabels (slots : List Slot) : Set Int := {l | ∃ s ∈ slots, s.size ≠ 0 ∧ s.label = l}

theorem openLabels_set {slots : List Slot} {j : Nat} {s s' : Slot} (hj : slots[j]? = some s) (hs' : s'.size ≠ 0)
    (hd : ∀ (i j : Nat) (s t : Slot), slots[i]? = some s → slots[j]? = some t → s.label = t.label → i = j) (x : Int) :
    x ∈ openLabels (slots.set j s') ↔ x = s'.label ∨ (x ∈ openLabels slots ∧ x ≠ s.label) := by
  have hjl : j < slots.length := (List.getElem?_eq_some_iff.mp hj).1
  constructor
  · rintro ⟨t, ht, hz, rfl⟩
    obtain ⟨i, hi, e⟩ := List.getElem_of_mem ht
    have hi? := List.getElem?_eq_some_iff.mpr ⟨hi, e⟩
    by_cases hij : i = j
    · subst hij
      rw [List.getElem?_set_self hjl] at hi?
      left
      rw [Option.some.inj hi?]
    · rw [List.getElem?_set_ne (Ne.symm hij)] at hi?
      right
      exact ⟨⟨t, List.mem_of_getElem? hi?, hz, rfl⟩, fun he => hij (hd i j t s hi? hj he)⟩
  · rintro (rfl | ⟨⟨t, ht, hz, rfl⟩, hne⟩)
    · exact ⟨s', List.mem_of_getElem? (List.getElem?_set_self hjl), hs', rfl⟩
    · obtain ⟨i, hi, e⟩ := List.getElem_of_mem ht
      have hi? := List.getElem?_eq_some_iff.mpr ⟨hi, e⟩
      have hij : i ≠ j := by
        rintro rfl
        rw [hj] at hi?
        exact hne (by rw [Option.some.inj hi?])
      exact ⟨t, List.mem_of_getElem? (by rw [List.getElem?_set_ne (Ne.symm hij)]; exact hi?), hz, rfl⟩

/-- Shape of one iteration: the labels of the slots in use. -/
theorem fitStep_open {n : Nat} {p : AbsParams} {done : List Hit} {ls : List Int} {k : Nat} {st st' : FitState} {i : Nat}
    {h : Hit} (inv : FitInv n p done ls k st.slots st.maxLabel) (hs : fitStep p i h st = .ok st') :
    ∃ l, st'.labels = st.labels.set i l ∧
      ((l ∈ openLabels st.slots ∧ ∀ x, x ∈ openLabels st'.slots ↔ x ∈ openLabels st.slots) ∨
       (l = k ∧ (∀ s ∈ st.slots, s.size ≠ 0 → s.accepts p h = false) ∧
          ∀ x, x ∈ openLabels st'.slots ↔ x = k ∨ x ∈ openLabels st.slots) ∨
       (l = k ∧ (∀ s ∈ st.slots, s.size ≠ 0 ∧ s.accepts p h = false) ∧ ∃ m ∈ st.slots, (∀ s ∈ st.slots, m.time ≤ s.time) ∧
          ∀ x, x ∈ openLabels st'.slots ↔ x = k ∨ (x ∈ openLabels st.slots ∧ x ≠ m.label))) := by
  have hd := inv.distinct
  unfold fitStep at hs
  cases hp : placeIn p h st.slots with
  | throws e => rw [hp] at hs; simp at hs
  | ub u => rw [hp] at hs; simp at hs
  | ok r =>
    rw [hp] at hs
    cases r with
    | some r =>
      simp only [Res.ok.injEq] at hs
      subst hs
      obtain ⟨j, s, s', hj, hset, hl, hbefore, hcase⟩ := placeIn_some p h st.slots r.1 r.2 hp
      have hjlt : j < st.slots.length := (List.getElem?_eq_some_iff.mp hj).1
      refine ⟨r.2, rfl, ?_⟩
      rcases hcase with ⟨h0, hopen⟩ | ⟨h0, hacc, hgrow⟩
      · right; left
        obtain ⟨hso, hlab, hsz⟩ := slotOf_open hopen
        have hkj : k ≤ j := (inv.empty j s hj).mp h0
        have hjk : j = k := by
          by_contra hne
          have hkl : k < j := by omega
          obtain ⟨sk, hsk⟩ : ∃ sk, st.slots[k]? = some sk :=
            ⟨_, List.getElem?_eq_some_iff.mpr ⟨by omega, rfl⟩⟩
          exact (hbefore k hkl sk hsk).1 ((inv.empty k sk hsk).mpr (Nat.le_refl _))
        subst hjk
        have hslab : s.label = (j : Int) := inv.emptyLabel j s hj h0
        refine ⟨by rw [hl, hslab], ?_, fun x => ?_⟩
        · intro t htm hz
          obtain ⟨i, hi, e⟩ := List.getElem_of_mem htm
          have ht := List.getElem?_eq_some_iff.mpr ⟨hi, e⟩
          have hik : ¬ j ≤ i := fun hk => hz ((inv.empty i t ht).mpr hk)
          exact (hbefore i (by omega) t ht).2
        · simp only
          rw [hset, openLabels_set hj (by omega) hd, hlab, hslab]
          constructor
          · rintro (rfl | ⟨hx, _⟩)
            · left; rfl
            · right; exact hx
          · rintro (rfl | hx)
            · left; rfl
            · right
              refine ⟨hx, ?_⟩
              obtain ⟨t, ht, hz, rfl⟩ := hx
              obtain ⟨i, hi, e⟩ := List.getElem_of_mem ht
              have := inv.fullLabel i t (List.getElem?_eq_some_iff.mpr ⟨hi, e⟩) hz
              omega
      · left
        have hm : s.label ∈ openLabels st.slots := ⟨s, List.mem_of_getElem? hj, h0, rfl⟩
        refine ⟨by rw [hl]; exact hm, fun x => ?_⟩
        simp only
        have hgl : (s.grow h).label = s.label := rfl
        have hgs : (s.grow h).size = s.size + 1 := rfl
        rw [hset, hgrow, openLabels_set hj (by omega) hd, hgl]
        constructor
        · rintro (rfl | ⟨hx, _⟩)
          · exact hm
          · exact hx
        · intro hx
          by_cases e : x = s.label
          · left; exact e
          · right; exact ⟨hx, e⟩
    | none =>
      simp only at hs
      have hnone := placeIn_none p h st.slots hp
      have hne : st.slots ≠ [] := by
        intro e
        have h1 := inv.nslots
        have h2 := inv.npos
        rw [e] at h1
        simp at h1
        omega
      obtain ⟨m, hm, hmin⟩ := minIndex_spec st.slots hne (fun s hs => (hnone s hs).1)
      cases ho : openSlot st.maxLabel h with
      | throws e => rw [ho] at hs; simp at hs
      | ub u => rw [ho] at hs; simp at hs
      | ok s' =>
        rw [ho] at hs
        simp only [Res.ok.injEq] at hs
        subst hs
        obtain ⟨hso, hlab, hsz⟩ := slotOf_open ho
        have hkn : n ≤ k := by
          by_contra hlt
          obtain ⟨sk, hsk⟩ : ∃ sk, st.slots[k]? = some sk :=
            ⟨_, List.getElem?_eq_some_iff.mpr ⟨by have := inv.nslots; omega, rfl⟩⟩
          exact (hnone sk (List.mem_of_getElem? hsk)).1 ((inv.empty k sk hsk).mpr (Nat.le_refl _))
        have hmx : st.maxLabel = (k : Int) := by rw [inv.max]; omega
        refine ⟨(k : Int), by rw [hmx], Or.inr (Or.inr ⟨rfl, hnone, m, List.mem_of_getElem? hm, hmin, fun x => ?_⟩)⟩
        simp only
        rw [openLabels_set hm (by omega) hd, hlab, hmx]

/-! ### Start times -/

theorem startNs_snoc {done : List Hit} {ls : List Int} {h : Hit} {l x : Int} (hlen : done.length = ls.length)
    (hx : members done ls x ≠ []) : startNs (done ++ [h]) (ls ++ [l]) x = startNs done ls x := by
  unfold startNs
  rw [members_snoc _ _ _ _ _ hlen]
  cases hM : members done ls x with
  | nil => exact absurd hM hx
  | cons a M => rfl

theorem startNs_new {done : List Hit} {ls : List Int} {h : Hit} {l : Int} (hlen : done.length = ls.length)
    (hl : l ∉ ls) : startNs (done ++ [h]) (ls ++ [l]) l = arrivalNs h := by
  unfold startNs
  rw [members_snoc _ _ _ _ _ hlen, members_nil_of_not_mem hl]
  simp

theorem members_ne_nil_of_mem {done : List Hit} {ls : List Int} {x : Int} (hlen : done.length = ls.length) (hx : x ∈ ls) :
    members done ls x ≠ [] := by
  obtain ⟨j, hj, e⟩ := List.getElem_of_mem hx
  intro hn
  unfold members at hn
  rw [List.map_eq_nil_iff, List.filter_eq_nil_iff] at hn
  have hz : j < (done.zip ls).length := by rw [List.length_zip]; omega
  have := hn _ (List.getElem_mem hz)
  rw [List.getElem_zip] at this
  simp [e] at this

theorem startNs_mem {done : List Hit} {ls : List Int} {x : Int} (hlen : done.length = ls.length) (hx : x ∈ ls) :
    ∃ g ∈ done, (members done ls x).head? = some g ∧ startNs done ls x = arrivalNs g := by
  obtain ⟨g, M, hM⟩ := List.exists_cons_of_ne_nil (members_ne_nil_of_mem hlen hx)
  have hg : g ∈ members done ls x := by rw [hM]; simp
  have hgd : g ∈ done := by
    unfold members at hg
    obtain ⟨a, ha, rfl⟩ := List.mem_map.mp hg
    exact (List.of_mem_zip (List.mem_filter.mp ha).1).1
  exact ⟨g, hgd, by rw [hM]; rfl, by unfold startNs; rw [hM]; rfl⟩

theorem startNs_slot {done : List Hit} {ls : List Int} {s : Slot} (hlen : done.length = ls.length)
    (ht : ∀ g ∈ done, g.spidertime.toNat < 2 ^ 48) (hs : SlotOf (members done ls s.label) s) :
    (s.time : Int) = startNs done ls s.label := by
  have hm : s.label ∈ ls := by
    by_contra hn
    exact hs.ne (members_nil_of_not_mem hn)
  obtain ⟨g, hg, hhd, he⟩ := startNs_mem hlen hm
  have := hs.time g hhd
  rw [toU64_time g (ht g hg)] at this
  have h0 := arrivalNs_nonneg g
  rw [he]
  have h1 : (arrivalNs g).toNat = s.time := Option.some.inj this
  omega

/-! ### The invariant -/

/-- Which clusters are open, in terms of the hits and labels so far. -/
structure OpenInv (n : Nat) (done : List Hit) (ls : List Int) (slots : List Slot) : Prop where
  kept : ∀ l ∈ ls, l ∉ openLabels slots → n ≤ (notEarlier done ls l).card + 1
  keptOrder : InOrder done → ∀ l ∈ ls, l ∉ openLabels slots → n ≤ (notEarlier done ls l).card
  up : InOrder done → ∀ x ∈ openLabels slots, ∀ y ∈ ls, startNs done ls x < startNs done ls y → y ∈ openLabels slots

theorem OpenInv.init (n : Nat) : OpenInv n [] [] (initSlots n) where
  kept := by simp
  keptOrder := by simp
  up := by simp

theorem _root_.Verif.Spec.InOrder.of_append {a b : List Hit} (h : InOrder (a ++ b)) : InOrder a := (List.pairwise_append.mp h).1

theorem notEarlier_snoc {done : List Hit} {ls : List Int} {h : Hit} {l x : Int} (hlen : done.length = ls.length)
    (hx : x ∈ ls) : notEarlier done ls x ⊆ notEarlier (done ++ [h]) (ls ++ [l]) x := by
  intro y hy
  unfold notEarlier at *
  rw [Finset.mem_filter, List.mem_toFinset] at *
  refine ⟨List.mem_append_left _ hy.1, hy.2.1, ?_⟩
  rw [startNs_snoc hlen (members_ne_nil_of_mem hlen hx), startNs_snoc hlen (members_ne_nil_of_mem hlen hy.1)]
  exact hy.2.2

theorem open_mem {n : Nat} {p : AbsParams} {done : List Hit} {ls : List Int} {k : Nat} {slots : List Slot} {mx : Int}
    (inv : FitInv n p done ls k slots mx) {x : Int} (hx : x ∈ openLabels slots) : x ∈ ls := by
  obtain ⟨s, hs, hz, rfl⟩ := hx
  by_contra hn
  exact (inv.slotOf s hs hz).ne (members_nil_of_not_mem hn)

/-- All slots in use: as many open clusters as slots. -/
theorem card_open {n : Nat} {p : AbsParams} {done : List Hit} {ls : List Int} {k : Nat} {slots : List Slot} {mx : Int}
    (inv : FitInv n p done ls k slots mx) : (slots.map Slot.label).toFinset.card = n := by
  rw [List.toFinset_card_of_nodup, List.length_map, inv.nslots]
  rw [List.nodup_iff_getElem?_ne_getElem?]
  intro i j hij hj he
  rw [List.length_map] at hj
  rw [List.getElem?_map, List.getElem?_map, List.getElem?_eq_getElem hj,
    List.getElem?_eq_getElem (by omega : i < slots.length)] at he
  have := inv.distinct i j _ _ (List.getElem?_eq_getElem (by omega)) (List.getElem?_eq_getElem hj)
    (by simpa using he)
  omega

theorem OpenInv.step {n : Nat} {p : AbsParams} {done : List Hit} {ls : List Int} {k : Nat} {st st' : FitState}
    {h : Hit} {l : Int} (ho : OpenInv n done ls st.slots) (inv : FitInv n p done ls k st.slots st.maxLabel)
    (ht : ∀ g ∈ done, g.spidertime.toNat < 2 ^ 48)
    (hcase : (l ∈ openLabels st.slots ∧ ∀ x, x ∈ openLabels st'.slots ↔ x ∈ openLabels st.slots) ∨
       (l = k ∧ (∀ s ∈ st.slots, s.size ≠ 0 → s.accepts p h = false) ∧
          ∀ x, x ∈ openLabels st'.slots ↔ x = k ∨ x ∈ openLabels st.slots) ∨
       (l = k ∧ (∀ s ∈ st.slots, s.size ≠ 0 ∧ s.accepts p h = false) ∧ ∃ m ∈ st.slots, (∀ s ∈ st.slots, m.time ≤ s.time) ∧
          ∀ x, x ∈ openLabels st'.slots ↔ x = k ∨ (x ∈ openLabels st.slots ∧ x ≠ m.label))) :
    OpenInv n (done ++ [h]) (ls ++ [l]) st'.slots := by
  have hlen := inv.len
  have hne : ∀ {x}, x ∈ ls → members done ls x ≠ [] := fun hx => members_ne_nil_of_mem hlen hx
  have hold : ∀ {x}, x ∈ ls → startNs (done ++ [h]) (ls ++ [l]) x = startNs done ls x :=
    fun hx => startNs_snoc hlen (hne hx)
  have hk : (k : Int) ∉ ls := fun hm => by have := (inv.lt _ hm).2; omega
  have hlast : InOrder (done ++ [h]) → ∀ {x}, x ∈ ls → startNs done ls x ≤ arrivalNs h := by
    intro hord x hx
    obtain ⟨g, hg, _, e⟩ := startNs_mem hlen hx
    rw [e]
    exact (List.pairwise_append.mp hord).2.2 g hg h (by simp)
  rcases hcase with ⟨hl, hopen⟩ | ⟨rfl, _, hopen⟩ | ⟨rfl, hfull, m, hm, hmin, hopen⟩
  · have hlls := open_mem inv hl
    have hmem : ∀ x, x ∈ ls ++ [l] → x ∈ ls := by
      intro x hx
      rcases List.mem_append.mp hx with hx | hx
      · exact hx
      · rw [List.mem_singleton.mp hx]; exact hlls
    constructor
    · intro x hx hno
      have := ho.kept x (hmem x hx) (by rwa [hopen] at hno)
      exact this.trans (Nat.succ_le_succ (Finset.card_le_card (notEarlier_snoc hlen (hmem x hx))))
    · intro hord x hx hno
      have := ho.keptOrder hord.of_append x (hmem x hx) (by rwa [hopen] at hno)
      exact this.trans (Finset.card_le_card (notEarlier_snoc hlen (hmem x hx)))
    · intro hord x hx y hy hlt
      rw [hopen] at hx ⊢
      rw [hold (open_mem inv hx), hold (hmem y hy)] at hlt
      exact ho.up hord.of_append x hx y (hmem y hy) hlt
  · have hmem : ∀ x, x ∈ ls ++ [(k : Int)] → x ∈ ls ∨ x = k := by
      intro x hx
      rcases List.mem_append.mp hx with hx | hx
      · left; exact hx
      · right; exact List.mem_singleton.mp hx
    constructor
    · intro x hx hno
      rw [hopen, not_or] at hno
      have hx : x ∈ ls := (hmem x hx).resolve_right hno.1
      exact (ho.kept x hx hno.2).trans (Nat.succ_le_succ (Finset.card_le_card (notEarlier_snoc hlen hx)))
    · intro hord x hx hno
      rw [hopen, not_or] at hno
      have hx : x ∈ ls := (hmem x hx).resolve_right hno.1
      exact (ho.keptOrder hord.of_append x hx hno.2).trans (Finset.card_le_card (notEarlier_snoc hlen hx))
    · intro hord x hx y hy hlt
      rw [hopen] at hx ⊢
      rcases hmem y hy with hy | rfl
      · right
        rw [hold hy] at hlt
        rcases hx with rfl | hx
        · rw [startNs_new hlen hk] at hlt
          have := hlast hord hy
          omega
        · rw [hold (open_mem inv hx)] at hlt
          exact ho.up hord.of_append x hx y hy hlt
      · left; rfl
  · have hmem : ∀ x, x ∈ ls ++ [(k : Int)] → x ∈ ls ∨ x = k := by
      intro x hx
      rcases List.mem_append.mp hx with hx | hx
      · left; exact hx
      · right; exact List.mem_singleton.mp hx
    have hml : m.label ∈ ls := open_mem inv ⟨m, hm, (hfull m hm).1, rfl⟩
    have hstart : ∀ s ∈ st.slots, startNs done ls m.label ≤ startNs done ls s.label := by
      intro s hs
      rw [← startNs_slot hlen ht (inv.slotOf m hm (hfull m hm).1), ← startNs_slot hlen ht (inv.slotOf s hs (hfull s hs).1)]
      exact_mod_cast hmin s hs
    -- the other open clusters started no earlier than the one that is given up
    have hsub : (st.slots.map Slot.label).toFinset.erase m.label ⊆ notEarlier (done ++ [h]) (ls ++ [(k : Int)]) m.label := by
      intro y hy
      rw [Finset.mem_erase, List.mem_toFinset] at hy
      obtain ⟨s, hs, rfl⟩ := List.mem_map.mp hy.2
      have hsl : s.label ∈ ls := open_mem inv ⟨s, hs, (hfull s hs).1, rfl⟩
      apply notEarlier_snoc hlen hml
      unfold notEarlier
      rw [Finset.mem_filter, List.mem_toFinset]
      exact ⟨hsl, hy.1, hstart s hs⟩
    have hcard : ((st.slots.map Slot.label).toFinset.erase m.label).card + 1 = n := by
      rw [Finset.card_erase_add_one (by rw [List.mem_toFinset]; exact List.mem_map.mpr ⟨m, hm, rfl⟩), card_open inv]
    constructor
    · intro x hx hno
      rw [hopen, not_or, not_and_not_right] at hno
      have hx : x ∈ ls := (hmem x hx).resolve_right hno.1
      by_cases hxo : x ∈ openLabels st.slots
      · rw [hno.2 hxo]
        rw [← hcard]
        exact Nat.succ_le_succ (Finset.card_le_card hsub)
      · exact (ho.kept x hx hxo).trans (Nat.succ_le_succ (Finset.card_le_card (notEarlier_snoc hlen hx)))
    · intro hord x hx hno
      rw [hopen, not_or, not_and_not_right] at hno
      have hx : x ∈ ls := (hmem x hx).resolve_right hno.1
      by_cases hxo : x ∈ openLabels st.slots
      · rw [hno.2 hxo]
        have hkn : (k : Int) ∉ (st.slots.map Slot.label).toFinset.erase m.label := by
          intro hin
          rw [Finset.mem_erase, List.mem_toFinset] at hin
          obtain ⟨s, hs, e⟩ := List.mem_map.mp hin.2
          exact hk (e ▸ open_mem inv ⟨s, hs, (hfull s hs).1, rfl⟩)
        have hkin : (k : Int) ∈ notEarlier (done ++ [h]) (ls ++ [(k : Int)]) m.label := by
          unfold notEarlier
          rw [Finset.mem_filter, List.mem_toFinset]
          refine ⟨by simp, fun e => hk (e ▸ hml), ?_⟩
          rw [hold hml, startNs_new hlen hk]
          exact hlast hord hml
        rw [← hcard, ← Finset.card_insert_of_notMem hkn]
        exact Finset.card_le_card (Finset.insert_subset hkin hsub)
      · exact (ho.keptOrder hord.of_append x hx hxo).trans (Finset.card_le_card (notEarlier_snoc hlen hx))
    · intro hord x hx y hy hlt
      rw [hopen] at hx ⊢
      rcases hmem y hy with hy | rfl
      · right
        rw [hold hy] at hlt
        rcases hx with rfl | ⟨hx, hxm⟩
        · rw [startNs_new hlen hk] at hlt
          have := hlast hord hy
          omega
        · have hxl := open_mem inv hx
          rw [hold hxl] at hlt
          refine ⟨ho.up hord.of_append x hx y hy hlt, ?_⟩
          rintro rfl
          obtain ⟨s, hs, hz, rfl⟩ := hx
          have := hstart s hs
          omega
      · left; rfl

/-- Later clusters of an open cluster are open, so there are fewer of them than slots. -/
theorem OpenInv.card_later {n : Nat} {p : AbsParams} {done : List Hit} {ls : List Int} {k : Nat} {slots : List Slot}
    {mx : Int} (ho : OpenInv n done ls slots) (inv : FitInv n p done ls k slots mx) (hord : InOrder done) {x : Int}
    (hx : x ∈ openLabels slots) : (laterThan done ls x).card < n := by
  have hsub : insert x (laterThan done ls x) ⊆ (slots.map Slot.label).toFinset := by
    intro y hy
    have hyo : y ∈ openLabels slots := by
      rcases Finset.mem_insert.mp hy with rfl | hy
      · exact hx
      · unfold laterThan at hy
        rw [Finset.mem_filter, List.mem_toFinset] at hy
        exact ho.up hord x hx y hy.1 hy.2
    obtain ⟨s, hs, _, rfl⟩ := hyo
    rw [List.mem_toFinset]
    exact List.mem_map.mpr ⟨s, hs, rfl⟩
  have hnot : x ∉ laterThan done ls x := by
    unfold laterThan
    simp
  have := Finset.card_le_card hsub
  rw [Finset.card_insert_of_notMem hnot, card_open inv] at this
  omega

/-- What a run says about the hit `h` that gets label `l` after the hits `done`. -/
def Choice (n : Nat) (p : AbsParams) (done : List Hit) (ls : List Int) (l : Int) (h : Hit) : Prop :=
  (l ∉ ls → ∀ x ∈ ls, (∀ s, SlotOf (members done ls x) s → s.accepts p h = true) →
    n ≤ (notEarlier done ls x).card + 1 ∧ (InOrder done → n ≤ (notEarlier done ls x).card)) ∧
  (l ∈ ls → InOrder done → (laterThan done ls l).card < n)

theorem choice_step {n : Nat} {p : AbsParams} {done : List Hit} {ls : List Int} {k : Nat} {st st' : FitState}
    {h : Hit} {l : Int} (ho : OpenInv n done ls st.slots) (inv : FitInv n p done ls k st.slots st.maxLabel)
    (hcase : (l ∈ openLabels st.slots ∧ ∀ x, x ∈ openLabels st'.slots ↔ x ∈ openLabels st.slots) ∨
       (l = k ∧ (∀ s ∈ st.slots, s.size ≠ 0 → s.accepts p h = false) ∧
          ∀ x, x ∈ openLabels st'.slots ↔ x = k ∨ x ∈ openLabels st.slots) ∨
       (l = k ∧ (∀ s ∈ st.slots, s.size ≠ 0 ∧ s.accepts p h = false) ∧ ∃ m ∈ st.slots, (∀ s ∈ st.slots, m.time ≤ s.time) ∧
          ∀ x, x ∈ openLabels st'.slots ↔ x = k ∨ (x ∈ openLabels st.slots ∧ x ≠ m.label))) :
    Choice n p done ls l h := by
  have hk : (k : Int) ∉ ls := fun hm => by have := (inv.lt _ hm).2; omega
  have hrej : (∀ s ∈ st.slots, s.size ≠ 0 → s.accepts p h = false) → ∀ x ∈ ls,
      (∀ s, SlotOf (members done ls x) s → s.accepts p h = true) → x ∉ openLabels st.slots := by
    rintro hall x hx hacc ⟨s, hs, hz, rfl⟩
    have := hacc s (inv.slotOf s hs hz)
    rw [hall s hs hz] at this
    simp at this
  rcases hcase with ⟨hl, _⟩ | ⟨rfl, hall, _⟩ | ⟨rfl, hall, _⟩
  · exact ⟨fun hn => absurd (open_mem inv hl) hn, fun _ hord => ho.card_later inv hord hl⟩
  · refine ⟨fun _ x hx hacc => ?_, fun hm => absurd hm hk⟩
    have := hrej hall x hx hacc
    exact ⟨ho.kept x hx this, fun hord => ho.keptOrder hord x hx this⟩
  · refine ⟨fun _ x hx hacc => ?_, fun hm => absurd hm hk⟩
    have := hrej (fun s hs _ => (hall s hs).2) x hx hacc
    exact ⟨ho.kept x hx this, fun hord => ho.keptOrder hord x hx this⟩

theorem fitLoop_open {n : Nat} {p : AbsParams} (hs done : List Hit) (ls tail : List Int) (k : Nat) (st st' : FitState)
    (ho : OpenInv n done ls st.slots)
    (inv : FitInv n p done ls k st.slots st.maxLabel) (hlab : st.labels = ls ++ tail)
    (htail : hs.length ≤ tail.length) (ht : ∀ g ∈ done ++ hs, g.spidertime.toNat < 2 ^ 48)
    (hch : ∀ i (hi : i < done.length) (hi' : i < ls.length), Choice n p (done.take i) (ls.take i) ls[i] done[i])
    (hok : fitLoop p done.length hs st = .ok st') :
    ∃ ls2, st'.labels = ls ++ ls2 ++ tail.drop hs.length ∧ ls2.length = hs.length ∧
      ∀ i (hi : i < (done ++ hs).length) (hi' : i < (ls ++ ls2).length),
        Choice n p ((done ++ hs).take i) ((ls ++ ls2).take i) (ls ++ ls2)[i] (done ++ hs)[i] := by
  induction hs generalizing done ls tail k st with
  | nil =>
    simp only [fitLoop, Res.ok.injEq] at hok
    subst hok
    exact ⟨[], by simp [hlab], rfl, by simpa using hch⟩
  | cons h hs ih =>
    simp only [fitLoop, bind, Res.bind] at hok
    cases hstep : fitStep p done.length h st with
    | throws e => rw [hstep] at hok; simp at hok
    | ub u => rw [hstep] at hok; simp at hok
    | ok st1 =>
      rw [hstep] at hok
      obtain ⟨l, k', hl, inv', _⟩ := inv.step hstep
      obtain ⟨l', hl', hcase⟩ := fitStep_open inv hstep
      cases tail with
      | nil => simp at htail
      | cons a tail =>
        have hset : ∀ l, st1.labels = st.labels.set done.length l → st1.labels = (ls ++ [l]) ++ tail := by
          intro l hl
          rw [hl, hlab, inv.len, List.set_append_right _ _ (Nat.le_refl _), Nat.sub_self]
          simp
        have hll : l' = l := by
          have e := (hset l' hl').symm.trans (hset l hl)
          simpa using e
        subst hll
        have hdone : ∀ g ∈ done, g.spidertime.toNat < 2 ^ 48 := fun g hg => ht g (by simp [hg])
        have hnew := choice_step ho inv hcase
        have ho' := ho.step inv hdone hcase
        obtain ⟨ls2, e1, e2, e3⟩ := ih (done ++ [h]) (ls ++ [l']) tail k' st1 ho' inv' (hset l' hl)
          (by simpa using htail) (by simpa using ht) (by
            intro i hi hi'
            have hi2 : i ≤ done.length := by simp at hi; omega
            have hlen := inv.len
            rw [List.take_append_of_le_length hi2, List.take_append_of_le_length (by omega)]
            rcases Nat.lt_or_ge i done.length with hlt | hge
            · rw [List.getElem_append_left hlt, List.getElem_append_left (by omega)]
              exact hch i hlt (by omega)
            · have e : i = done.length := by omega
              subst e
              rw [List.take_length]
              simp only [hlen, List.take_length, List.getElem_concat_length]
              exact hnew) (by simpa using hok)
        refine ⟨l' :: ls2, by rw [e1]; simp, by simp [e2], ?_⟩
        simpa using e3

end Verif
