import Verif.Spec.H5
import Verif.Lemmas.F64
import Mathlib.Tactic.Linarith
import Mathlib.Tactic.NormNum

/-!
# Lemmas about groups and datasets
-/

namespace Verif

open Spec

theorem lookup_setKey {α : Type} (k k' : Name) (v : α) (l : List (Name × α)) :
    (setKey k v l).lookup k' = if k' = k then (l.lookup k).map fun _ => v else l.lookup k' := by
  unfold setKey
  induction l with
  | nil => simp
  | cons p l ih =>
    obtain ⟨a, b⟩ := p
    rw [List.map_cons]
    by_cases hak : a = k
    · subst hak
      rw [if_pos rfl]
      by_cases hk : k' = a
      · subst hk; simp
      · have : (k' == a) = false := by simp [hk]
        rw [if_neg hk, List.lookup_cons, List.lookup_cons, this, ih, if_neg hk]
    · rw [if_neg hak]
      by_cases hk : k' = a
      · subst hk; rw [if_neg hak]; simp
      · have h1 : (k' == a) = false := by simp [hk]
        rw [List.lookup_cons, h1, ih]
        simp only
        by_cases hkk : k' = k
        · subst hkk
          rw [if_pos rfl, if_pos rfl, List.lookup_cons, h1]
        · rw [if_neg hkk, if_neg hkk, List.lookup_cons, h1]

theorem lookup_snoc {α : Type} (k k' : Name) (v : α) (l : List (Name × α)) (h : l.lookup k = none) :
    (l ++ [(k, v)]).lookup k' = if k' = k then some v else l.lookup k' := by
  rw [List.lookup_append]
  by_cases hk : k' = k
  · subst hk; rw [h, if_pos rfl]; simp
  · have : (k' == k) = false := by simp [hk]
    rw [if_neg hk, List.lookup_cons, this]
    simp

/-- Every dataset of the given names that exists can be extended. -/
def Extendible (g : Group) (names : List Name) : Prop :=
  ∀ n ∈ names, ∀ ds, g.lookup n = some ds → ds.extendible = true

/-- Data of a dataset, empty when absent. -/
def dataOf (g : Group) (n : Name) : List F64 := ((g.lookup n).map Dataset.data).getD []

theorem extendDataset_ok (name : Name) (data : List F64) (hd : data ≠ []) (g : Group) (names : List Name)
    (hg : Extendible g names) (hn : name ∈ names) :
    ∃ g', extendDataset none name data g = (g', false) ∧
      ∀ n, g'.lookup n = if n = name then some ⟨dataOf g name ++ data, true⟩ else g.lookup n := by
  unfold extendDataset
  rw [if_neg hd]
  cases hl : g.lookup name with
  | none =>
    refine ⟨g ++ [(name, ⟨data, true⟩)], by simp only [reduceCtorEq, if_false], ?_⟩
    intro n
    rw [lookup_snoc _ _ _ _ hl]
    simp [dataOf, hl]
  | some ds =>
    have := hg name hn ds hl
    refine ⟨setKey name ⟨ds.data ++ data, true⟩ g, ?_, ?_⟩
    · simp only
      rw [if_neg (by simp), if_neg (by simp [this]), if_neg (by simp)]
    · intro n
      rw [lookup_setKey, hl]
      simp [dataOf, hl]

/-- Appending to all columns without a failure. -/
theorem extendColumns_ok (names : List Name) (cols : List (Name × List F64)) (hd : ∀ c ∈ cols, c.2 ≠ [])
    (hnd : (cols.map Prod.fst).Nodup) (hn : ∀ c ∈ cols, c.1 ∈ names) (faults : Nat → Option DFault) (k : Nat)
    (hf : ∀ i, k ≤ i → i < k + cols.length → faults i = none)
    (g : Group) (hg : Extendible g names) :
    ∃ g', extendColumns faults k cols g = (g', false) ∧ Extendible g' names ∧
      (∀ c ∈ cols, g'.lookup c.1 = some ⟨dataOf g c.1 ++ c.2, true⟩) ∧
      ∀ n, n ∉ cols.map Prod.fst → g'.lookup n = g.lookup n := by
  induction cols generalizing k g with
  | nil => exact ⟨g, rfl, hg, by simp, fun _ _ => rfl⟩
  | cons c cols ih =>
    obtain ⟨name, data⟩ := c
    rw [List.map_cons, List.nodup_cons] at hnd
    obtain ⟨g1, e1, e2⟩ := extendDataset_ok name data (hd (name, data) (by simp)) g names hg (hn (name, data) (by simp))
    have hg1 : Extendible g1 names := by
      intro n hm ds hl
      rw [e2 n] at hl
      split_ifs at hl with h
      · injection hl with hl; rw [← hl]
      · exact hg n hm ds hl
    obtain ⟨g', f1, f2, f3, f4⟩ := ih (fun c hc => hd c (by simp [hc])) hnd.2 (fun c hc => hn c (by simp [hc])) (k + 1)
      (fun i h1 h2 => hf i (by omega) (by simp; omega)) g1 hg1
    refine ⟨g', ?_, f2, ?_, ?_⟩
    · rw [extendColumns, hf k (le_refl k) (by simp), e1]
      exact f1
    · intro c hc
      rcases List.mem_cons.mp hc with rfl | hc
      · rw [f4 name hnd.1, e2 name, if_pos rfl]
      · rw [f3 c hc]
        have hne : c.1 ≠ name := fun e => hnd.1 (e ▸ List.mem_map.mpr ⟨c, hc, rfl⟩)
        unfold dataOf
        rw [e2 c.1, if_neg hne]
    · intro n hm
      rw [List.map_cons, List.mem_cons, not_or] at hm
      rw [f4 n hm.2, e2 n, if_neg hm.1]

/-- Failing at one column. -/
theorem extendColumns_fail (pre : List (Name × List F64)) (name : Name) (data : List F64) (post : List (Name × List F64))
    (faults : Nat → Option DFault) (k : Nat) (hf : ∀ i, k ≤ i → i < k + pre.length → faults i = none) (g g1 : Group)
    (h1 : extendColumns faults k pre g = (g1, false)) :
    extendColumns faults k (pre ++ (name, data) :: post) g =
      match extendDataset (faults (k + pre.length)) name data g1 with
      | (g', true) => (g', true)
      | (g', false) => extendColumns faults (k + pre.length + 1) post g' := by
  induction pre generalizing k g with
  | nil =>
    rw [extendColumns] at h1
    simp only [Prod.mk.injEq, and_true] at h1
    subst h1
    rfl
  | cons c pre ih =>
    obtain ⟨n, d⟩ := c
    rw [List.cons_append, extendColumns]
    rw [extendColumns] at h1
    cases he : extendDataset (faults k) n d g with
    | mk g2 b =>
      rw [he] at h1
      cases b with
      | true => simp at h1
      | false =>
        simp only at h1 ⊢
        rw [ih (k + 1) (fun i h1 h2 => hf i (by omega) (by simp; omega)) g2 h1]
        rw [List.length_cons, show k + 1 + pre.length = k + (pre.length + 1) by omega]

/-- The group exists and its columns can be extended, or it is absent. -/
def GroupReady (f : H5) (grp : Name) (names : List Name) : Prop :=
  ∀ g, f.lookup grp = some g → Extendible g names

theorem openOrCreate_ok (grp : Name) (f : H5) :
    ∃ f', openOrCreate none grp f = some f' ∧ f'.lookup grp = some ((f.lookup grp).getD []) ∧
      ∀ n, n ≠ grp → f'.lookup n = f.lookup n := by
  unfold openOrCreate
  cases hl : f.lookup grp with
  | some g => exact ⟨f, by simp, by simp [hl], fun _ _ => rfl⟩
  | none =>
    refine ⟨f ++ [(grp, [])], by simp, ?_, ?_⟩
    · rw [lookup_snoc _ _ _ _ hl, if_pos rfl]; rfl
    · intro n hn; rw [lookup_snoc _ _ _ _ hl, if_neg hn]

/-- An append in terms of the group. -/
theorem appendColumns_eq (faults : Nat → Option DFault) (grp : Name) (cols : List (Name × List F64)) (f : H5) (g' : Group)
    (b : Bool) (h : extendColumns faults 0 cols ((f.lookup grp).getD []) = (g', b)) :
    ∃ f', appendColumns none faults grp cols f = some (f', b) ∧ f'.lookup grp = some g' ∧
      ∀ n, n ≠ grp → f'.lookup n = f.lookup n := by
  obtain ⟨f1, e1, e2, e3⟩ := openOrCreate_ok grp f
  refine ⟨setKey grp g' f1, ?_, ?_, ?_⟩
  · unfold appendColumns
    rw [e1]
    simp only
    rw [e2, Option.getD_some, h]
  · rw [lookup_setKey, if_pos rfl, e2]; rfl
  · intro n hn
    rw [lookup_setKey, if_neg hn, e3 n hn]

theorem extendible_getD {f : H5} {grp : Name} {names : List Name} (h : GroupReady f grp names) :
    Extendible ((f.lookup grp).getD []) names := by
  cases hl : f.lookup grp with
  | none => intro n _ ds hd; simp at hd
  | some g => exact h g hl

theorem dataOf_column (f : H5) (grp n : Name) : dataOf ((f.lookup grp).getD []) n = (column f grp n).getD [] := by
  unfold dataOf column
  cases f.lookup grp with
  | none => simp
  | some g => simp

/-- An append without failure adds the data to every column and leaves everything else. -/
theorem appendColumns_ok (grp : Name) (names : List Name) (cols : List (Name × List F64)) (hd : ∀ c ∈ cols, c.2 ≠ [])
    (hnd : (cols.map Prod.fst).Nodup) (hn : ∀ c ∈ cols, c.1 ∈ names) (f : H5) (hf : GroupReady f grp names) :
    ∃ f', appendColumns none (fun _ => none) grp cols f = some (f', false) ∧ GroupReady f' grp names ∧
      (∀ c ∈ cols, column f' grp c.1 = some ((column f grp c.1).getD [] ++ c.2)) ∧
      ∀ n, n ≠ grp → f'.lookup n = f.lookup n := by
  obtain ⟨g', e1, e2, e3, -⟩ := extendColumns_ok names cols hd hnd hn (fun _ => none) 0 (fun _ _ _ => rfl) _
    (extendible_getD hf)
  obtain ⟨f', h1, h2, h3⟩ := appendColumns_eq _ grp cols f g' false e1
  refine ⟨f', h1, ?_, ?_, h3⟩
  · intro g hg
    rw [h2] at hg; injection hg with hg; rw [← hg]; exact e2
  · intro c hc
    rw [← dataOf_column]
    unfold column
    rw [h2, Option.bind_some, e3 c hc]
    rfl

theorem mapM_some {α β : Type} (f : α → Option β) (g : α → β) (l : List α) (h : ∀ a ∈ l, f a = some (g a)) :
    l.mapM f = some (l.map g) := by
  induction l with
  | nil => rfl
  | cons a l ih =>
    rw [List.mapM_cons, h a (by simp), ih fun b hb => h b (by simp [hb])]
    rfl

theorem columnData_ok {α : Type} (cols : List (Name × (α → Option F64))) (vals : List (Name × (α → F64))) (xs : List α)
    (h : List.Forall₂ (fun c v => c.1 = v.1 ∧ ∀ x ∈ xs, c.2 x = some (v.2 x)) cols vals) :
    columnData cols xs = .ok (vals.map fun v => (v.1, xs.map v.2)) := by
  have : cols.mapM (fun c => (xs.mapM c.2).map fun d => (c.1, d)) = some (vals.map fun v => (v.1, xs.map v.2)) := by
    induction h with
    | nil => rfl
    | cons h1 h2 ih =>
      rw [List.mapM_cons, mapM_some _ _ _ h1.2, ih, h1.1]
      rfl
  unfold columnData
  rw [this]

end Verif
