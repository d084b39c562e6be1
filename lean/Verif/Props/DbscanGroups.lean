import Verif.Spec.DbscanGroups
import Verif.Props.DbscanEvents
import Mathlib.Order.Lattice.Nat
import Mathlib.Data.Int.Interval
import Mathlib.Data.Finset.Prod
import Mathlib.Tactic.IntervalCases

/-!
# C113: neutrons apart in space or time are each found once by DBSCAN
-/

namespace Verif.Props

open Verif Verif.Spec

theorem ncard_positions (l : List Nat) (g : Nat) : Set.ncard {j : Nat | l[j]? = some g} = l.count g := by
  induction l with
  | nil => simp
  | cons a l ih =>
    have hfin : Set.Finite {j : Nat | l[j]? = some g} := by
      refine (Set.finite_lt_nat l.length).subset fun j hj => ?_
      exact (List.getElem?_eq_some_iff.mp hj).1
    have himg : Set.ncard (Nat.succ '' {j : Nat | l[j]? = some g}) = l.count g := by
      rw [Set.ncard_image_of_injective _ Nat.succ_injective, ih]
    rw [List.count_cons]
    by_cases h : a = g
    · have hset : {j : Nat | (a :: l)[j]? = some g} = insert 0 (Nat.succ '' {j : Nat | l[j]? = some g}) := by
        ext j
        cases j <;> simp [h]
      rw [hset, Set.ncard_insert_of_notMem (by simp) (hfin.image _), himg]
      simp [h]
    · have hset : {j : Nat | (a :: l)[j]? = some g} = Nat.succ '' {j : Nat | l[j]? = some g} := by
        ext j
        cases j <;> simp [h]
      rw [hset, himg]
      simp [h]

theorem close_bound {pts : List (Int × Int)} {e : ℚ} {i j : Nat} (h : Close pts e i j) : i < pts.length ∧ j < pts.length := by
  obtain ⟨a, b, h1, h2, -⟩ := h
  exact ⟨(List.getElem?_eq_some_iff.mp h1).1, (List.getElem?_eq_some_iff.mp h2).1⟩

/-- One call of two-dimensional DBSCAN: the labels are the groups. -/
theorem fit_groups {fit : List (F64 × F64) → Labelling (F64 × F64)} {near far : ℚ} {m : Nat} (D : Dbscan2D fit near far m)
    (pts : List (Int × Int)) (hs : Small pts) (hne : pts ≠ []) (gs : List Nat) (hlen : gs.length = pts.length)
    (hclose : ∀ i j g : Nat, gs[i]? = some g → gs[j]? = some g → Close pts near i j)
    (hapart : ∀ i j : Nat, Close pts far i j → gs[i]? = gs[j]?)
    (hsize : ∀ g ∈ gs, m ≤ gs.count g) :
    (∀ i < pts.length, ∃ l, (fit (asDoubles pts)).labels[i]? = some l ∧ l < (fit (asDoubles pts)).k) ∧
    ∀ i j : Nat, i < pts.length → j < pts.length →
      ((fit (asDoubles pts)).labels[i]? = (fit (asDoubles pts)).labels[j]? ↔ gs[i]? = gs[j]?) := by
  have hw := D.good (asDoubles pts) (by simpa [asDoubles] using hne)
  have hdense : ∀ i < pts.length, m ≤ Set.ncard {t | Close pts near i t} := by
    intro i hi
    have hg : gs[i]? = some gs[i] := List.getElem?_eq_getElem (by omega)
    refine (hsize gs[i] (List.getElem_mem _)).trans ?_
    rw [← ncard_positions]
    refine Set.ncard_le_ncard (fun t ht => hclose i t _ hg ht) ?_
    exact (Set.finite_lt_nat pts.length).subset fun t ht => (close_bound ht).2
  have hsame : ∀ i j : Nat, i < pts.length → j < pts.length → gs[i]? = gs[j]? →
      ∃ l, l ≠ sizeMax ∧ (fit (asDoubles pts)).labels[i]? = some l ∧ (fit (asDoubles pts)).labels[j]? = some l := by
    intro i j hi hj h
    have hg : gs[i]? = some gs[i] := List.getElem?_eq_getElem (by omega)
    exact D.dense pts hs i j (hclose i j _ hg (h ▸ hg)) (hdense i hi) (hdense j hj)
  refine ⟨fun i hi => ?_, fun i j hi hj => ⟨fun h => ?_, fun h => ?_⟩⟩
  · obtain ⟨l, hl, h1, -⟩ := hsame i i hi hi rfl
    exact ⟨l, h1, (hw.range l (List.mem_of_getElem? h1)).resolve_left hl⟩
  · obtain ⟨l, hl, h1, -⟩ := hsame i i hi hi rfl
    have hlink := D.linked pts hs i j l h1 (h ▸ h1) hl
    have : ∀ j, Linked pts far i j → gs[i]? = gs[j]? := by
      intro j hj
      induction hj with
      | refl => rfl
      | tail _ hstep ih => exact ih.trans (hapart _ _ hstep)
    exact this j hlink
  · obtain ⟨l, -, h1, h2⟩ := hsame i j hi hj h
    rw [h1, h2]

theorem setLabels_at (k off : Nat) (idx : List Nat) : ∀ (ls : List Nat) (ii : Nat) (out out' : List Int),
    ii + ls.length ≤ idx.length → idx.Nodup → (∀ j ∈ idx, j < out.length) → setLabels k off idx ls ii out = .ok out' →
    (∀ j, j ∉ idx.drop ii → out'[j]? = out[j]?) ∧
    ∀ (t l j : Nat), ls[t]? = some l → idx[ii + t]? = some j → out'[j]? = some (encLabel k off l)
  | [], ii, out, out', _, _, _, h => by
    rw [setLabels, Res.ok.injEq] at h
    subst h
    exact ⟨fun _ _ => rfl, by simp⟩
  | l :: ls, ii, out, out', hlen, hnd, hb, h => by
    have hii : ii < idx.length := by simp at hlen; omega
    have hdrop : idx.drop ii = idx[ii] :: idx.drop (ii + 1) := List.drop_eq_getElem_cons hii
    have hjb := hb idx[ii] (List.getElem_mem hii)
    have hnotin : idx[ii] ∉ idx.drop (ii + 1) := by
      have := hnd.sublist (List.drop_sublist ii idx)
      rw [hdrop] at this
      exact (List.nodup_cons.mp this).1
    unfold setLabels at h
    rw [List.getElem?_eq_getElem hii] at h
    simp only at h
    rw [if_pos hjb] at h
    obtain ⟨h1, h2⟩ := setLabels_at k off idx ls (ii + 1) _ out' (by simp at hlen; omega) hnd (by simpa using hb) h
    refine ⟨?_, ?_⟩
    · intro j hj
      rw [hdrop] at hj
      simp only [List.mem_cons, not_or] at hj
      rw [h1 j hj.2, List.getElem?_set, if_neg (fun h => hj.1 h.symm)]
    · intro t l' j hl hj
      cases t with
      | zero =>
        have e1 : l = l' := by simpa using hl
        have e2 : idx[ii] = j := by
          rw [Nat.add_zero, List.getElem?_eq_getElem hii] at hj
          exact Option.some.inj hj
        subst e1
        subst e2
        rw [h1 _ hnotin, List.getElem?_set, if_pos rfl, if_pos hjb]
        rfl
      | succ t =>
        exact h2 t l' j (by simpa using hl) (by rw [← hj]; congr 1; omega)

theorem xyPoints_eq (hits : List Hit) (hp : ∀ h ∈ hits, |h.x| ≤ 2 ^ 20 ∧ |h.y| ≤ 2 ^ 20) : ∀ idx : List Nat,
    (∀ i ∈ idx, i < hits.length) →
    ∃ pts, xyPoints hits idx = .ok (asDoubles pts) ∧ pts.length = idx.length ∧
      ∀ t j : Nat, idx[t]? = some j → pts[t]? = (hits.map place)[j]?
  | [], _ => ⟨[], rfl, rfl, by simp⟩
  | i :: is, h => by
    obtain ⟨pts, h1, h2, h3⟩ := xyPoints_eq hits hp is fun x hx => h x (by simp [hx])
    have hi := h i (by simp)
    have hb := hp hits[i] (List.getElem_mem hi)
    refine ⟨place hits[i] :: pts, ?_, by simp [h2], ?_⟩
    · unfold xyPoints
      rw [List.getElem?_eq_getElem hi, h1]
      simp only [Res.bind, asDoubles, List.map_cons, place]
      rw [F64.ofInt_exact (hb.1.trans (by norm_num)), F64.ofInt_exact (hb.2.trans (by norm_num))]
    · intro t j hj
      cases t with
      | zero =>
        have : i = j := by simpa using hj
        subst this
        simp [List.getElem?_eq_getElem hi]
      | succ t => simpa using h3 t j (by simpa using hj)

theorem mul_one_double {q : ℚ} (h : FiniteDouble q) : F64.mul (.fin q) (.fin 1) = .fin q := by
  show F64.ofRat (q * 1) = _
  rw [mul_one]
  exact h

theorem count_of_positions {l : List Nat} {l' : List Nat} {g : Nat} (f : Nat → Nat)
    (hinj : ∀ s t, s < l.length → t < l.length → f s = f t → s = t)
    (hmap : ∀ t : Nat, t < l.length → l[t]? = l'[f t]?)
    (hall : ∀ j : Nat, l'[j]? = some g → ∃ t < l.length, f t = j) : l.count g = l'.count g := by
  rw [← ncard_positions, ← ncard_positions]
  have himg : {j : Nat | l'[j]? = some g} = f '' {t : Nat | l[t]? = some g} := by
    ext j
    simp only [Set.mem_ofPred_eq, Set.mem_image]
    constructor
    · intro h
      obtain ⟨t, ht, rfl⟩ := hall j h
      exact ⟨t, by rw [hmap t ht]; exact h, rfl⟩
    · rintro ⟨t, ht, rfl⟩
      rw [← hmap t (List.getElem?_eq_some_iff.mp ht).1]
      exact ht
  have hio : Set.InjOn f {t : Nat | l[t]? = some g} := fun s hs t ht h =>
    hinj s t (List.getElem?_eq_some_iff.mp hs).1 (List.getElem?_eq_some_iff.mp ht).1 h
  rw [himg, hio.ncard_image]

/-- What the loop over the time clusters finds in hits that are grouped. -/
theorem fitXY_groups (c : DbCtx) {near far : ℚ} {m : Nat} (D : Dbscan2D c.fit2D near far m) (hits : List Hit) (group : List Nat)
    (hglen : group.length = hits.length) (hp : ∀ h ∈ hits, |h.x| ≤ 2 ^ 20 ∧ |h.y| ≤ 2 ^ 20)
    (hclose : ∀ i j g : Nat, group[i]? = some g → group[j]? = some g → Close (hits.map place) near i j)
    (hsize : ∀ g ∈ group, m ≤ group.count g) (hn : hits.length < 2 ^ 31) :
    ∀ (infos : List TimeInfo) (off : Nat) (labels : List Int) (events : List NEvent) (labels' : List Int)
      (events' : List NEvent),
    (∀ o ∈ infos, o.idx ≠ []) → (infos.flatMap TimeInfo.idx).Nodup →
    (∀ i ∈ infos.flatMap TimeInfo.idx, i < hits.length) → labels.length = hits.length → events.length = off →
    off + (infos.flatMap TimeInfo.idx).length ≤ hits.length →
    (∀ o ∈ infos, ∀ i ∈ o.idx, ∀ j : Nat, j < hits.length → group[i]? = group[j]? → j ∈ o.idx) →
    (∀ o ∈ infos, ∀ i ∈ o.idx, ∀ j ∈ o.idx, Close (hits.map place) far i j → group[i]? = group[j]?) →
    fitXY c hits infos off labels events = .ok (labels', events') →
      labels'.length = labels.length ∧ off ≤ events'.length ∧
      (∀ i, i ∉ infos.flatMap TimeInfo.idx → labels'[i]? = labels[i]?) ∧
      (∀ n, n < off → events'[n]? = events[n]?) ∧
      (∀ i ∈ infos.flatMap TimeInfo.idx, ∃ n : Nat, labels'[i]? = some (n : Int) ∧ off ≤ n ∧ n < events'.length) ∧
      (∀ i ∈ infos.flatMap TimeInfo.idx, ∀ j ∈ infos.flatMap TimeInfo.idx,
        (labels'[i]? = labels'[j]? ↔ group[i]? = group[j]?)) ∧
      (∀ (n : Nat) (ev : NEvent), off ≤ n → events'[n]? = some ev → ∃ o ∈ infos, ∃ i ∈ o.idx, ∃ g,
        labels'[i]? = some (n : Int) ∧ group[i]? = some g ∧ ev.tof = o.mean ∧
          InGroup group hits g Hit.x ev.x ∧ InGroup group hits g Hit.y ev.y)
  | [], off, labels, events, labels', events', _, _, _, _, hoff, _, _, _, h => by
    rw [fitXY, Res.ok.injEq, Prod.mk.injEq] at h
    obtain ⟨rfl, rfl⟩ := h
    refine ⟨rfl, by omega, fun _ _ => rfl, fun _ _ => rfl, by simp, by simp, ?_⟩
    intro n ev h1 h2
    have := (List.getElem?_eq_some_iff.mp h2).1
    omega
  | info :: infos, off, labels, events, labels', events', hne, hnd, hb, hlen, hoff, hsz, hcl, hap, h => by
    rw [List.flatMap_cons] at hnd hb hsz
    obtain ⟨hnd1, hnd2, hnd3⟩ := List.nodup_append.mp hnd
    obtain ⟨pts, p1, p2, p3⟩ := xyPoints_eq hits hp info.idx fun i hi => hb i (by simp [hi])
    have hidxne := hne info (by simp)
    have hptsne : pts ≠ [] := by
      intro h
      rw [h] at p2
      exact hidxne (List.length_eq_zero_iff.mp p2.symm)
    have hw := D.good (asDoubles pts) (by simpa [asDoubles] using hptsne)
    have hdl : (asDoubles pts).length = info.idx.length := by simp [asDoubles, p2]
    rw [hdl] at hw
    have hidx : ∀ t (ht : t < info.idx.length), pts[t]? = (hits.map place)[info.idx[t]]? := fun t ht =>
      p3 t _ (List.getElem?_eq_getElem ht)
    have hin : ∀ t (ht : t < info.idx.length), info.idx[t] ∈ info.idx := fun t ht => List.getElem_mem ht
    have hlt : ∀ t (ht : t < info.idx.length), info.idx[t] < hits.length := fun t ht => hb _ (by simp)
    have hinj : ∀ s t (hs : s < info.idx.length) (ht : t < info.idx.length), info.idx[s] = info.idx[t] → s = t :=
      fun s t hs ht h => (List.Nodup.getElem_inj_iff hnd1).mp h
    have hsmall : Small pts := by
      intro p hmem
      obtain ⟨t, ht⟩ := List.getElem?_of_mem hmem
      have htl : t < info.idx.length := by rw [← p2]; exact (List.getElem?_eq_some_iff.mp ht).1
      rw [hidx t htl, List.getElem?_map, Option.map_eq_some_iff] at ht
      obtain ⟨g, hg, rfl⟩ := ht
      exact hp g (List.mem_of_getElem? hg)
    have hcloseIff : ∀ (e : ℚ) (s t : Nat) (hs : s < info.idx.length) (ht : t < info.idx.length),
        Close pts e s t ↔ Close (hits.map place) e info.idx[s] info.idx[t] := by
      intro e s t hs ht
      unfold Close
      rw [hidx s hs, hidx t ht]
    -- the groups of the hits of this time cluster
    have hgs : ∃ gs : List Nat, gs.length = info.idx.length ∧ ∀ t (ht : t < info.idx.length), gs[t]? = group[info.idx[t]]? := by
      refine ⟨info.idx.map fun i => group.getD i 0, by simp, ?_⟩
      intro t ht
      have := hlt t ht
      rw [List.getElem?_map, List.getElem?_eq_getElem ht, List.getElem?_eq_getElem (by omega)]
      simp [List.getD_eq_getElem?_getD, List.getElem?_eq_getElem (show info.idx[t] < group.length by omega)]
    obtain ⟨gs, g1, g2⟩ := hgs
    have hgb : ∀ t g : Nat, gs[t]? = some g → t < info.idx.length := fun t g h => by
      rw [← g1]; exact (List.getElem?_eq_some_iff.mp h).1
    obtain ⟨f1, f2⟩ := fit_groups D pts hsmall hptsne gs (by omega)
      (by
        intro s t g hs ht
        have bs := hgb s g hs
        have bt := hgb t g ht
        rw [hcloseIff near s t bs bt]
        exact hclose _ _ g (by rw [← g2 s bs]; exact hs) (by rw [← g2 t bt]; exact ht))
      (by
        intro s t hst
        obtain ⟨bs, bt⟩ := close_bound hst
        rw [p2] at bs bt
        rw [g2 s bs, g2 t bt]
        exact hap info (by simp) _ (hin s bs) _ (hin t bt) ((hcloseIff far s t bs bt).mp hst))
      (by
        intro g hg
        obtain ⟨t, ht⟩ := List.getElem?_of_mem hg
        have bt := hgb t g ht
        have hgm : group[info.idx[t]]? = some g := by rw [← g2 t bt]; exact ht
        have hc : gs.count g = group.count g := by
          refine count_of_positions (fun t => info.idx.getD t 0) ?_ ?_ ?_
          · intro s t hs ht' heq
            rw [g1] at hs ht'
            refine hinj s t hs ht' ?_
            simpa [List.getD_eq_getElem?_getD, List.getElem?_eq_getElem hs, List.getElem?_eq_getElem ht'] using heq
          · intro t ht'
            rw [g1] at ht'
            rw [g2 t ht']
            simp [List.getD_eq_getElem?_getD, List.getElem?_eq_getElem ht']
          · intro j hj
            have hj' := (List.getElem?_eq_some_iff.mp hj).1
            have hm := hcl info (by simp) _ (hin t bt) j (by omega) (by rw [hgm, hj])
            obtain ⟨u, hu⟩ := List.getElem?_of_mem hm
            refine ⟨u, by rw [g1]; exact (List.getElem?_eq_some_iff.mp hu).1, ?_⟩
            simp [List.getD_eq_getElem?_getD, hu]
        rw [hc]
        exact hsize g (List.mem_of_getElem? hgm))
    have hcen := D.centroid pts hsmall
    have hk : (c.fit2D (asDoubles pts)).k ≤ info.idx.length := by
      have hsub : List.range (c.fit2D (asDoubles pts)).k ⊆ (c.fit2D (asDoubles pts)).labels :=
        fun j hj => hw.used j (List.mem_range.mp hj)
      have := (List.nodup_range.subperm hsub).length_le
      rw [List.length_range, hw.len] at this
      exact this
    have hsz' : off + (c.fit2D (asDoubles pts)).k < 2 ^ 31 := by rw [List.length_append] at hsz; omega
    unfold fitXY at h
    rw [p1] at h
    simp only [Res.bind] at h
    generalize c.fit2D (asDoubles pts) = L at *
    match hset : setLabels L.k off info.idx L.labels 0 labels with
    | .throws _ => rw [hset] at h; simp at h
    | .ub _ => rw [hset] at h; simp at h
    | .ok lab1 =>
      rw [hset] at h
      simp only at h
      have hl1 : lab1.length = labels.length := by
        have key : ∀ (ls : List Nat) (ii : Nat) (a b : List Int), setLabels L.k off info.idx ls ii a = .ok b →
            b.length = a.length := by
          intro ls
          induction ls with
          | nil => intro ii a b hab; rw [setLabels, Res.ok.injEq] at hab; rw [hab]
          | cons x xs ih =>
            intro ii a b hab
            unfold setLabels at hab
            split at hab
            · simp at hab
            · split at hab
              · have := ih _ _ _ hab
                simpa using this
              · simp at hab
        exact key _ _ _ _ hset
      obtain ⟨s1, s2⟩ := setLabels_at L.k off info.idx L.labels 0 labels lab1 (by rw [hw.len]; omega) hnd1
        (fun j hj => hlen ▸ hb j (by simp [hj])) hset
      rw [countedLabels_eq hw] at h
      obtain ⟨es, v1, v2, v3⟩ := xyEvents_ok info.mean L (List.range L.k) fun l hl => by
        rw [hw.centroids]; exact List.mem_range.mp hl
      rw [v1] at h
      simp only at h
      rw [List.length_range] at v2
      obtain ⟨r0, r1, r2, r3, r4, r5, r6⟩ := fitXY_groups c D hits group hglen hp hclose hsize hn infos (off + L.k) lab1
        (events ++ es) labels' events' (fun o ho => hne o (by simp [ho])) hnd2
        (fun i hi => hb i (by rw [List.mem_append]; exact Or.inr hi)) (by omega)
        (by rw [List.length_append, v2, hoff]) (by rw [List.length_append] at hsz; omega)
        (fun o ho => hcl o (by simp [ho])) (fun o ho => hap o (by simp [ho])) h
      -- labels of this time cluster
      have hlab : ∀ t (ht : t < info.idx.length), ∃ l, L.labels[t]? = some l ∧ l < L.k ∧
          labels'[info.idx[t]]? = some ((l + off : Nat) : Int) := by
        intro t ht
        obtain ⟨l, hl, hlk⟩ := f1 t (by omega)
        refine ⟨l, hl, hlk, ?_⟩
        have hsm := hw.small
        rw [r2 _ (fun hc => hnd3 _ (hin t ht) _ hc rfl), s2 t l _ hl (by rw [Nat.zero_add, List.getElem?_eq_getElem ht]),
          encLabel_eq hw.small (Or.inr hlk) hsz', if_neg (by omega)]
      refine ⟨by omega, by omega, ?_, ?_, ?_, ?_, ?_⟩
      · intro i hi
        rw [List.flatMap_cons, List.mem_append, not_or] at hi
        rw [r2 i hi.2, s1 i (by rw [List.drop_zero]; exact hi.1)]
      · intro n hn'
        rw [r3 n (by omega), List.getElem?_append_left (by omega)]
      · intro i hi
        rw [List.flatMap_cons, List.mem_append] at hi
        rcases hi with hi | hi
        · obtain ⟨t, ht⟩ := List.getElem?_of_mem hi
          obtain ⟨ht', rfl⟩ := List.getElem?_eq_some_iff.mp ht
          obtain ⟨l, -, h2, h3⟩ := hlab t ht'
          exact ⟨l + off, h3, by omega, by omega⟩
        · obtain ⟨n, h1, h2, h3⟩ := r4 i hi
          exact ⟨n, h1, by omega, h3⟩
      · have hmix : ∀ i ∈ info.idx, ∀ j ∈ infos.flatMap TimeInfo.idx,
            labels'[i]? ≠ labels'[j]? ∧ group[i]? ≠ group[j]? := by
          intro i hi j hj
          obtain ⟨t, ht⟩ := List.getElem?_of_mem hi
          obtain ⟨ht', rfl⟩ := List.getElem?_eq_some_iff.mp ht
          obtain ⟨l, -, h2, h3⟩ := hlab t ht'
          obtain ⟨n, k1, k2, k3⟩ := r4 j hj
          refine ⟨?_, ?_⟩
          · rw [h3, k1]
            simp only [ne_eq, Option.some.injEq]
            omega
          · intro he
            have hm := hcl info (by simp) _ hi j (hb j (by rw [List.mem_append]; exact Or.inr hj)) he
            exact hnd3 j hm j hj rfl
        intro i hi j hj
        rw [List.flatMap_cons, List.mem_append] at hi hj
        rcases hi with hi | hi <;> rcases hj with hj | hj
        · obtain ⟨s, hs⟩ := List.getElem?_of_mem hi
          obtain ⟨hs', rfl⟩ := List.getElem?_eq_some_iff.mp hs
          obtain ⟨t, ht⟩ := List.getElem?_of_mem hj
          obtain ⟨ht', rfl⟩ := List.getElem?_eq_some_iff.mp ht
          obtain ⟨l, a1, a2, a3⟩ := hlab s hs'
          obtain ⟨l', b1, b2, b3⟩ := hlab t ht'
          rw [a3, b3, ← g2 s hs', ← g2 t ht', ← f2 s t (by omega) (by omega), a1, b1]
          simp only [Option.some.injEq]
          omega
        · have := hmix i hi j hj
          exact ⟨fun h => absurd h this.1, fun h => absurd h this.2⟩
        · have := hmix j hj i hi
          exact ⟨fun h => absurd h.symm this.1, fun h => absurd h.symm this.2⟩
        · exact r5 i hi j hj
      · intro n ev hno hev
        by_cases hnk : n < off + L.k
        · rw [r3 n hnk, List.getElem?_append_right (by omega), hoff] at hev
          obtain ⟨ev', p, a1, a2, a3⟩ := v3 (n - off) (n - off) (List.getElem?_range (by omega))
          rw [a1] at hev
          have := Option.some.inj hev
          subst this
          obtain ⟨t, ht⟩ := List.getElem?_of_mem (hw.used (n - off) (by omega))
          have ht' : t < info.idx.length := by rw [← hw.len]; exact (List.getElem?_eq_some_iff.mp ht).1
          obtain ⟨l, b1, b2, b3⟩ := hlab t ht'
          rw [b1] at ht
          have hl := Option.some.inj ht
          subst hl
          have hgb' : info.idx[t] < group.length := by have := hlt t ht'; omega
          refine ⟨info, by simp, info.idx[t], hin t ht', group[info.idx[t]], ?_, List.getElem?_eq_getElem hgb', by rw [a3], ?_⟩
          · rw [b3]
            congr 2
            omega
          obtain ⟨c', c1, c2, c3⟩ := hcen (n - off) (by omega)
          rw [a2] at c1
          have hcc := Option.some.inj c1
          subst hcc
          have hmem : ∀ (f : Int × Int → Int) (v : F64), Amid L.labels pts (n - off) f v →
              InGroup group hits group[info.idx[t]] (fun h => f (place h)) (F64.mul v (.fin 1)) := by
            rintro f v ⟨q, rfl, hq, ⟨u, a, u1, u2, u3⟩, ⟨w, b, w1, w2, w3⟩⟩
            rw [mul_one_double hq]
            have hone : ∀ (u : Nat) (a : Int × Int), L.labels[u]? = some (n - off) → pts[u]? = some a →
                ∃ (i : Nat) (h : Hit), group[i]? = some group[info.idx[t]] ∧ hits[i]? = some h ∧ place h = a := by
              intro u a u1 u2
              have hu : u < info.idx.length := by rw [← p2]; exact (List.getElem?_eq_some_iff.mp u2).1
              rw [hidx u hu, List.getElem?_map, Option.map_eq_some_iff] at u2
              obtain ⟨h0, k1, k2⟩ := u2
              refine ⟨info.idx[u], h0, ?_, k1, k2⟩
              rw [← g2 u hu, (f2 u t (by omega) (by omega)).mp (by rw [u1, b1]), g2 t ht', List.getElem?_eq_getElem hgb']
            obtain ⟨i, h0, k1, k2, k3⟩ := hone u a u1 u2
            obtain ⟨i', h0', k1', k2', k3'⟩ := hone w b w1 w2
            exact ⟨q, rfl, ⟨i, h0, k1, k2, by show (f (place h0) : ℚ) ≤ q; rw [k3]; exact u3⟩, ⟨i', h0', k1', k2', by show q ≤ (f (place h0') : ℚ); rw [k3']; exact w3⟩⟩
          rw [a3]
          exact ⟨hmem _ _ c2, hmem _ _ c3⟩
        · obtain ⟨o, ho, i, hi, g, hh⟩ := r6 n ev (by omega) hev
          exact ⟨o, by simp [ho], i, hi, g, hh⟩

/-- C113: neutrons that are apart in space or time are each found once, with the number of their hits, a place between their
hits, and as time the mean of all hits connected in time with theirs. -/
theorem c113_groups (c : DbCtx) (e near far : ℚ) (m : Nat) (he : FiniteDouble e) (he0 : 0 ≤ e) (hc : c.epsTime = .fin e)
    (hsort : SortsByStart c.sort) (h1 : Dbscan1D c.fit1D e) (h2 : Dbscan2D c.fit2D near far m) (hits : List Hit)
    (hz : ∀ h ∈ hits, 0 ≤ h.toa ∧ h.toa < 16384) (hp : ∀ h ∈ hits, |h.x| ≤ 2 ^ 20 ∧ |h.y| ≤ 2 ^ 20)
    (hn : hits.length < 2 ^ 31) (group : List Nat) (hg : Grouped group hits e near far c.minTime m) :
    ∃ s, dbFit c DbState.init hits = .ok s ∧ FoundGroups group hits e s.labels s.events := by
  obtain ⟨s, hs, hlen, hagree⟩ := c61_new_partial c e he he0 hc hsort h1 h2.good hits hz hn
  refine ⟨s, hs, ?_⟩
  have hglen := hg.length
  by_cases hne : hits = []
  · subst hne
    have : group = [] := List.length_eq_zero_iff.mp hglen
    subst this
    unfold dbFit dbFitWith at hs
    simp only [if_true, Res.ok.injEq] at hs
    subst hs
    exact ⟨hlen, by simp, by simp, by simp⟩
  unfold dbFit dbFitWith at hs
  simp only [if_neg hne] at hs
  obtain ⟨out, o1, hcomp, hmean⟩ := c60_components c e he he0 hc hsort h1 maxHitChunkSize (by decide) hits hne hz
  have hT : (hits.map toaNsQ).length = hits.length := by simp
  have hnd : (out.flatMap TimeInfo.idx).Nodup := by rw [List.flatMap_def]; exact hcomp.nodup
  have hb : ∀ i ∈ out.flatMap TimeInfo.idx, i < hits.length := by
    intro i hi
    obtain ⟨o, ho, hio⟩ := List.mem_flatMap.mp hi
    rw [← hT]
    exact hcomp.bound _ (List.mem_map_of_mem ho) i hio
  have hall : ∀ i < hits.length, i ∈ out.flatMap TimeInfo.idx := by
    intro i hi
    obtain ⟨o, ho, hio⟩ := (hcomp.all i (by omega)).mpr (hg.lasting i hi)
    obtain ⟨o', ho', rfl⟩ := List.mem_map.mp ho
    exact List.mem_flatMap.mpr ⟨o', ho', hio⟩
  have hclosed : ∀ o ∈ out, ∀ i ∈ o.idx, ∀ j, j ∈ o.idx ↔ Connected (hits.map toaNsQ) e i j :=
    fun o ho => hcomp.closed _ (List.mem_map_of_mem ho)
  rw [o1] at hs
  simp only [Res.bind] at hs
  match hfit : fitXY c hits out 0 (resizeLabels hits.length DbState.init.labels) [] with
  | .throws _ => rw [hfit] at hs; simp at hs
  | .ub _ => rw [hfit] at hs; simp at hs
  | .ok (labels, events) =>
    rw [hfit] at hs
    simp only [Res.ok.injEq] at hs
    subst hs
    simp only at hlen hagree ⊢
    obtain ⟨-, -, -, -, r4, r5, r6⟩ := fitXY_groups c h2 hits group hglen hp (fun i j g a b => (hg.close i j g a b).1) hg.size hn
      out 0 _ [] labels events (fun o ho => hcomp.ne _ (List.mem_map_of_mem ho)) hnd hb (resizeLabels_length _ _) rfl
      (by
        have hsub : (out.flatMap TimeInfo.idx) ⊆ List.range hits.length := fun i hi => List.mem_range.mpr (hb i hi)
        have := (hnd.subperm hsub).length_le
        rw [List.length_range] at this
        omega)
      (by
        intro o ho i hi j hj he
        have hi' := hb i (List.mem_flatMap.mpr ⟨o, ho, hi⟩)
        have hgi : group[i]? = some group[i] := List.getElem?_eq_getElem (by omega)
        exact (hclosed o ho i hi j).mpr (hg.close i j _ hgi (he ▸ hgi)).2)
      (by
        intro o ho i hi j hj hcl
        have hi' := hb i (List.mem_flatMap.mpr ⟨o, ho, hi⟩)
        have hj' := hb j (List.mem_flatMap.mpr ⟨o, ho, hj⟩)
        have hgi : group[i]? = some group[i] := List.getElem?_eq_getElem (by omega)
        have hgj : group[j]? = some group[j] := List.getElem?_eq_getElem (by omega)
        by_contra hd
        have hgg : group[i] ≠ group[j] := by
          intro h; rw [hgi, hgj, h] at hd; exact hd rfl
        rcases hg.apart i j _ _ hgi hgj hgg with h | h
        · exact h hcl
        · exact h ((hclosed o ho i hi j).mp hj))
      hfit
    -- positions of a label and of its group
    have hiff : ∀ (n : Nat) (i : Nat) (g : Nat), labels[i]? = some (n : Int) → group[i]? = some g →
        ∀ j : Nat, labels[j]? = some (n : Int) ↔ group[j]? = some g := by
      intro n i g hl hgi j
      have hi : i < hits.length := by have := (List.getElem?_eq_some_iff.mp hl).1; omega
      by_cases hj : j < hits.length
      · have := r5 i (hall i hi) j (hall j hj)
        rw [hl, hgi] at this
        constructor
        · intro h; exact (this.mp h.symm).symm
        · intro h; exact (this.mpr h.symm).symm
      · rw [List.getElem?_eq_none (by omega), List.getElem?_eq_none (by omega)]
        simp
    have hgroup : ∀ g ∈ group, ∃ n : Nat, n < events.length ∧ ∀ i : Nat, labels[i]? = some (n : Int) ↔ group[i]? = some g := by
      intro g hgm
      obtain ⟨i, hi⟩ := List.getElem?_of_mem hgm
      obtain ⟨n, a1, -, a3⟩ := r4 i (hall i (by have := (List.getElem?_eq_some_iff.mp hi).1; omega))
      exact ⟨n, a3, hiff n i g a1 hi⟩
    have hevent : ∀ n, n < events.length → ∃ g, g ∈ group ∧ ∀ i : Nat, labels[i]? = some (n : Int) ↔ group[i]? = some g := by
      intro n hn'
      obtain ⟨o, -, i, -, g, a1, a2, -⟩ := r6 n _ (Nat.zero_le _) (List.getElem?_eq_getElem hn')
      exact ⟨g, List.mem_of_getElem? a2, hiff n i g a1 a2⟩
    refine ⟨hlen, ?_, ?_, hgroup⟩
    · rw [← Finset.card_range events.length]
      refine Finset.card_bij (fun n hn' => (hevent n (Finset.mem_range.mp hn')).choose) ?_ ?_ ?_
      · intro n hn'
        exact List.mem_toFinset.mpr (hevent n (Finset.mem_range.mp hn')).choose_spec.1
      · intro n hn1 n' hn2 heq
        have e1 := (hevent n (Finset.mem_range.mp hn1)).choose_spec
        have e2 := (hevent n' (Finset.mem_range.mp hn2)).choose_spec
        rw [← heq] at e2
        obtain ⟨i, hi⟩ := List.getElem?_of_mem e1.1
        have f1 := (e1.2 i).mpr hi
        have f2 := (e2.2 i).mpr hi
        rw [f1] at f2
        have := Option.some.inj f2
        omega
      · intro g hgm
        obtain ⟨n, b1, b2⟩ := hgroup g (List.mem_toFinset.mp hgm)
        refine ⟨n, Finset.mem_range.mpr b1, ?_⟩
        have e1 := (hevent n b1).choose_spec
        obtain ⟨i, hi⟩ := List.getElem?_of_mem (List.mem_toFinset.mp hgm)
        have f1 := (e1.2 i).mp ((b2 i).mpr hi)
        rw [hi] at f1
        exact (Option.some.inj f1).symm
    · intro n ev hev
      obtain ⟨o, ho, i, hi, g, a1, a2, a3, a4, a5⟩ := r6 n ev (Nat.zero_le _) hev
      refine ⟨g, List.mem_of_getElem? a2, hiff n i g a1 a2, ?_, a4, a5, o.idx, ?_, ⟨i, a2, hclosed o ho i hi⟩, ?_⟩
      · rw [(hagree.counts n ev hev).1]
        congr 1
        have hE : labels.count (n : Int) = group.count g := by
          have key : ∀ (l : List Int) (k : List Nat), l.length = k.length →
              (∀ j : Nat, l[j]? = some (n : Int) ↔ k[j]? = some g) → l.count (n : Int) = k.count g := by
            intro l
            induction l with
            | nil => intro k hk _; rw [List.length_eq_zero_iff.mp hk.symm]; rfl
            | cons a l ih =>
              intro k hk hj
              cases k with
              | nil => simp at hk
              | cons b k =>
                have h0 := hj 0
                simp only [List.getElem?_cons_zero, Option.some.injEq] at h0
                rw [List.count_cons, List.count_cons, ih k (by simpa using hk) (fun j => by simpa using hj (j + 1))]
                by_cases hab : b = g
                · simp [hab, h0.mpr hab]
                · have : ¬ a = (n : Int) := fun h => hab (h0.mp h)
                  simp [hab, this]
          exact key labels group (by omega) (hiff n i g a1 a2)
        exact hE
      · exact (List.nodup_flatMap.mp hnd).1 o ho
      · rw [a3]
        exact hmean (by omega) o ho

/-! ## The assumptions can be met -/

open Classical in
/-- The least point connected with point `i`. -/
noncomputable def repOf (pts : List (Int × Int)) (e : ℚ) (i : Nat) : Nat := sInf {j | Linked pts e i j}

theorem close_symm {pts : List (Int × Int)} {e : ℚ} {i j : Nat} (h : Close pts e i j) : Close pts e j i := by
  obtain ⟨a, b, h1, h2, h3, h4⟩ := h
  refine ⟨b, a, h2, h1, h3, ?_⟩
  nlinarith

theorem linked_symm {pts : List (Int × Int)} {e : ℚ} {i j : Nat} (h : Linked pts e i j) : Linked pts e j i := by
  induction h with
  | refl => exact .refl
  | tail _ h ih => exact .head (close_symm h) ih

theorem repOf_linked (pts : List (Int × Int)) (e : ℚ) (i : Nat) : Linked pts e i (repOf pts e i) :=
  Nat.sInf_mem (s := {j | Linked pts e i j}) ⟨i, .refl⟩

theorem repOf_le (pts : List (Int × Int)) (e : ℚ) (i : Nat) : repOf pts e i ≤ i :=
  Nat.sInf_le (s := {j | Linked pts e i j}) .refl

theorem repOf_eq_iff (pts : List (Int × Int)) (e : ℚ) (i j : Nat) : repOf pts e i = repOf pts e j ↔ Linked pts e i j := by
  constructor
  · intro h
    exact (repOf_linked pts e i).trans (h ▸ linked_symm (repOf_linked pts e j))
  · intro h
    unfold repOf
    congr 1
    ext t
    exact ⟨fun ht => (linked_symm h).trans ht, fun ht => h.trans ht⟩

/-- The points back from doubles. -/
def asPoints (ps : List (F64 × F64)) : List (Int × Int) := ps.map fun p => (⌊val p.1⌋, ⌊val p.2⌋)

theorem asPoints_asDoubles (pts : List (Int × Int)) : asPoints (asDoubles pts) = pts := by
  unfold asPoints asDoubles
  rw [List.map_map]
  conv_rhs => rw [← List.map_id pts]
  refine List.map_congr_left fun p _ => ?_
  simp [val]

/-- The representatives of all connected components. -/
noncomputable def reps (pts : List (Int × Int)) (e : ℚ) : List Nat := ((List.range pts.length).map (repOf pts e)).dedup

open Classical in
/-- Clustering by connected components. -/
noncomputable def compFit (e : ℚ) (ps : List (F64 × F64)) : Labelling (F64 × F64) :=
  if Small (asPoints ps) then
    ⟨(reps (asPoints ps) e).length, (List.range ps.length).map fun i => (reps (asPoints ps) e).idxOf (repOf (asPoints ps) e i),
      (reps (asPoints ps) e).map fun r => ps.getD r (.fin 0, .fin 0)⟩
  else ⟨0, List.replicate ps.length sizeMax, []⟩

theorem reps_small {pts : List (Int × Int)} {e : ℚ} (he : 0 ≤ e) (hs : Small pts) : (reps pts e).length < sizeMax := by
  have hmem : ∀ r ∈ reps pts e, r < pts.length ∧ repOf pts e r = r := by
    intro r hr
    unfold reps at hr
    rw [List.mem_dedup, List.mem_map] at hr
    obtain ⟨i, hi, rfl⟩ := hr
    rw [List.mem_range] at hi
    have h1 := repOf_le pts e i
    refine ⟨by omega, ?_⟩
    rw [repOf_eq_iff]
    exact linked_symm (repOf_linked pts e i)
  obtain ⟨B, hB⟩ : ∃ B : Int, B = 2 ^ 20 := ⟨_, rfl⟩
  have hs' : ∀ p ∈ pts, |p.1| ≤ B ∧ |p.2| ≤ B := by rw [hB]; exact hs
  have hcard : (reps pts e).toFinset.card ≤ ((Finset.Icc (-B) B) ×ˢ (Finset.Icc (-B) B)).card := by
    refine Finset.card_le_card_of_injOn (fun r => pts.getD r (0, 0)) ?_ ?_
    · intro r hr
      obtain ⟨hl, -⟩ := hmem r (List.mem_toFinset.mp hr)
      have := hs' pts[r] (List.getElem_mem hl)
      simp only [abs_le] at this
      simp only [List.getD_eq_getElem?_getD, List.getElem?_eq_getElem hl, Option.getD_some, Finset.coe_product, Finset.coe_Icc,
        Set.mem_prod, Set.mem_Icc]
      exact this
    · intro r hr r' hr' heq
      obtain ⟨h1, h2⟩ := hmem r (List.mem_toFinset.mp hr)
      obtain ⟨h1', h2'⟩ := hmem r' (List.mem_toFinset.mp hr')
      simp only [List.getD_eq_getElem?_getD, List.getElem?_eq_getElem h1, List.getElem?_eq_getElem h1', Option.getD_some] at heq
      rw [← h2, ← h2', repOf_eq_iff]
      refine .single ⟨pts[r], pts[r'], List.getElem?_eq_getElem h1, List.getElem?_eq_getElem h1', he, ?_⟩
      rw [heq]
      have : (0 : ℚ) ≤ e ^ 2 := by positivity
      simpa using this
  rw [List.toFinset_card_of_nodup (by unfold reps; exact List.nodup_dedup _), Finset.card_product, Int.card_Icc] at hcard
  have hT : (B + 1 - -B).toNat = 2097153 := by rw [hB]; rfl
  rw [hT] at hcard
  unfold sizeMax
  omega

theorem compFit_good {e : ℚ} (he : 0 ≤ e) (ps : List (F64 × F64)) (_ : ps ≠ []) : WellLabelled (compFit e ps) ps.length := by
  unfold compFit
  split_ifs with hs
  · have hlen : (asPoints ps).length = ps.length := by simp [asPoints]
    refine ⟨by simp, ?_, ?_, reps_small he hs, by simp⟩
    · intro l hl
      obtain ⟨i, hi, rfl⟩ := List.mem_map.mp hl
      right
      refine List.idxOf_lt_length_iff.mpr ?_
      unfold reps
      rw [List.mem_dedup]
      exact List.mem_map.mpr ⟨i, by rw [hlen]; exact hi, rfl⟩
    · intro j hj
      simp only at hj
      have hm : (reps (asPoints ps) e)[j] ∈ reps (asPoints ps) e := List.getElem_mem hj
      have hnd : (reps (asPoints ps) e).Nodup := by unfold reps; exact List.nodup_dedup _
      have hm' := hm
      unfold reps at hm'
      rw [List.mem_dedup, List.mem_map] at hm'
      obtain ⟨i, hi, h⟩ := hm'
      refine List.mem_map.mpr ⟨i, by rw [← hlen]; exact hi, ?_⟩
      have h' : repOf (asPoints ps) e i = (reps (asPoints ps) e)[j] := h
      rw [h']
      exact hnd.idxOf_getElem j hj
  · exact ⟨by simp, fun l hl => Or.inl (List.eq_of_mem_replicate hl), fun j hj => absurd hj (Nat.not_lt_zero j),
      by simp [sizeMax], rfl⟩

theorem compFit_labels {e : ℚ} (pts : List (Int × Int)) (hs : Small pts) (i l : Nat) :
    (compFit e (asDoubles pts)).labels[i]? = some l ↔ i < pts.length ∧ (reps pts e).idxOf (repOf pts e i) = l := by
  unfold compFit
  rw [asPoints_asDoubles, if_pos hs]
  simp only [asDoubles, List.length_map, List.getElem?_map, Option.map_eq_some_iff]
  constructor
  · rintro ⟨a, ha, h⟩
    obtain ⟨h1, h2⟩ := List.getElem?_eq_some_iff.mp ha
    simp only [List.length_range] at h1
    simp only [List.getElem_range] at h2
    subst h2
    exact ⟨h1, h⟩
  · rintro ⟨h1, h2⟩
    exact ⟨i, List.getElem?_range h1, h2⟩

theorem mem_reps {pts : List (Int × Int)} {e : ℚ} {i : Nat} (hi : i < pts.length) : repOf pts e i ∈ reps pts e := by
  unfold reps
  rw [List.mem_dedup]
  exact List.mem_map.mpr ⟨i, List.mem_range.mpr hi, rfl⟩

/-- Clustering by connected components is one of the functions allowed for mlpack. -/
theorem compFit_dbscan {e : ℚ} (he : 0 ≤ e) (m : Nat) : Dbscan2D (compFit e) e e m := by
  refine ⟨compFit_good he, ?_, ?_, ?_⟩
  · intro pts hs i j l hi hj _
    rw [compFit_labels pts hs] at hi hj
    have : repOf pts e i = repOf pts e j :=
      (List.idxOf_inj (mem_reps hi.1)).mp (hi.2.trans hj.2.symm)
    exact (repOf_eq_iff pts e i j).mp this
  · intro pts hs i j hij _ _
    obtain ⟨hi, hj⟩ := close_bound hij
    refine ⟨(reps pts e).idxOf (repOf pts e i), ?_, (compFit_labels pts hs i _).mpr ⟨hi, rfl⟩,
      (compFit_labels pts hs j _).mpr ⟨hj, ?_⟩⟩
    · have h1 := List.idxOf_lt_length_iff.mpr (mem_reps (e := e) hi)
      have h2 := reps_small he hs
      omega
    · rw [(repOf_eq_iff pts e i j).mpr (.single hij)]
  · intro pts hs l hl
    have hk : (compFit e (asDoubles pts)).k = (reps pts e).length := by
      unfold compFit; rw [asPoints_asDoubles, if_pos hs]
    rw [hk] at hl
    have hnd : (reps pts e).Nodup := by unfold reps; exact List.nodup_dedup _
    have hm : (reps pts e)[l] ∈ reps pts e := List.getElem_mem hl
    have hm' := hm
    unfold reps at hm'
    rw [List.mem_dedup, List.mem_map] at hm'
    obtain ⟨i, hi, h⟩ := hm'
    have h' : repOf pts e i = (reps pts e)[l] := h
    rw [List.mem_range] at hi
    have hle := repOf_le pts e i
    have hr : (reps pts e)[l] < pts.length := by omega
    have hrep : repOf pts e (reps pts e)[l] = (reps pts e)[l] := by
      rw [← h', repOf_eq_iff]; exact linked_symm (repOf_linked pts e i)
    have hlab : (compFit e (asDoubles pts)).labels[(reps pts e)[l]]? = some l :=
      (compFit_labels pts hs _ _).mpr ⟨hr, by rw [hrep]; exact hnd.idxOf_getElem l hl⟩
    have hp : pts[(reps pts e)[l]]? = some pts[(reps pts e)[l]] := List.getElem?_eq_getElem hr
    have hsm := hs _ (List.getElem_mem hr)
    refine ⟨(.fin pts[(reps pts e)[l]].1, .fin pts[(reps pts e)[l]].2), ?_, ?_, ?_⟩
    · unfold compFit
      rw [asPoints_asDoubles, if_pos hs]
      simp only
      rw [List.getElem?_map, List.getElem?_eq_getElem hl]
      simp [asDoubles, List.getD_eq_getElem?_getD, hp]
    · exact ⟨_, rfl, F64.ofRat_int (hsm.1.trans (by norm_num)), ⟨_, _, hlab, hp, le_refl _⟩, ⟨_, _, hlab, hp, le_refl _⟩⟩
    · exact ⟨_, rfl, F64.ofRat_int (hsm.2.trans (by norm_num)), ⟨_, _, hlab, hp, le_refl _⟩, ⟨_, _, hlab, hp, le_refl _⟩⟩

/-- Within 100 ns, at least two points; within two pixels. -/
noncomputable def gCtx : DbCtx := ⟨.fin 100, 2, eqFit, compFit 2, sortByStart⟩

/-- Two neutrons at the same time, and a third later at the place of the first. -/
def gHits : List Hit := [⟨10, 10, 5, 4, 0, none, 0⟩, ⟨30, 30, 5, 4, 0, none, 0⟩, ⟨11, 10, 5, 5, 0, none, 0⟩, ⟨30, 31, 5, 4, 0, none, 0⟩,
  ⟨10, 10, 5, 400, 0, none, 0⟩, ⟨10, 11, 5, 401, 0, none, 0⟩]

theorem gHits_connected (i j : Nat) (hi : i < 6) (hj : j < 6) :
    Connected (gHits.map toaNsQ) 100 i j ↔ (i < 4 ↔ j < 4) := by
  have ht : gHits.map toaNsQ = [100, 100, 125, 100, 10000, 10025] := by
    simp only [gHits, toaNsQ, List.map_cons, List.map_nil]
    norm_num
  rw [ht]
  constructor
  · intro h
    have : ∀ j, Connected [100, 100, 125, 100, 10000, 10025] 100 i j → (j < 6 ∧ (i < 4 ↔ j < 4)) := by
      intro j hj
      induction hj with
      | refl => exact ⟨hi, Iff.rfl⟩
      | tail _ hstep ih =>
        rename_i s t _
        obtain ⟨a, b, ha, hb, hab⟩ := hstep
        obtain ⟨hs, hst⟩ := ih
        have htl : t < 6 := (List.getElem?_eq_some_iff.mp hb).1
        refine ⟨htl, hst.trans ?_⟩
        interval_cases s <;> interval_cases t <;>
          simp only [List.getElem?_cons_zero, List.getElem?_cons_succ, Option.some.injEq] at ha hb <;> subst ha <;> subst hb <;>
          first | omega | (norm_num [abs_le] at hab)
    exact (this j h).2
  · intro h
    refine .single ?_
    interval_cases i <;> interval_cases j <;>
      first | (exfalso; omega) | exact ⟨_, _, rfl, rfl, by norm_num [abs_le]⟩

/-- The hypotheses of `c113_groups` hold for them. -/
example : ∃ s, dbFit gCtx DbState.init gHits = .ok s ∧ FoundGroups [0, 1, 0, 1, 2, 2] gHits 100 s.labels s.events := by
  refine c113_groups gCtx 100 2 2 2 ?_ (by norm_num) rfl sortByStart_sorts (eqFit_dbscan (by norm_num))
    (compFit_dbscan (by norm_num) 2) gHits (by decide) (by decide) (by decide) [0, 1, 0, 1, 2, 2] ?_
  · have := F64.ofRat_int (n := 100) (by norm_num)
    unfold FiniteDouble; norm_num at this ⊢; exact this
  have hpts : gHits.map place = [(10, 10), (30, 30), (11, 10), (30, 31), (10, 10), (10, 11)] := rfl
  refine ⟨rfl, ?_, ?_, by decide, ?_⟩
  · intro i j g hi hj
    have hi6 := (List.getElem?_eq_some_iff.mp hi).1
    have hj6 := (List.getElem?_eq_some_iff.mp hj).1
    rw [gHits_connected i j hi6 hj6, hpts]
    simp only [List.length_cons, List.length_nil] at hi6 hj6
    interval_cases i <;> interval_cases j <;>
      simp only [List.getElem?_cons_zero, List.getElem?_cons_succ, Option.some.injEq] at hi hj <;>
      first | (exfalso; omega) | exact ⟨⟨_, _, rfl, rfl, by norm_num, by norm_num⟩, by omega⟩
  · intro i j g g' hi hj hgg
    have hi6 := (List.getElem?_eq_some_iff.mp hi).1
    have hj6 := (List.getElem?_eq_some_iff.mp hj).1
    rw [gHits_connected i j hi6 hj6, hpts]
    simp only [List.length_cons, List.length_nil] at hi6 hj6
    by_cases h4 : i < 4 ↔ j < 4
    · left
      rintro ⟨a, b, ha, hb, -, hab⟩
      interval_cases i <;> interval_cases j <;>
        simp only [List.getElem?_cons_zero, List.getElem?_cons_succ, Option.some.injEq] at hi hj ha hb <;> subst ha <;> subst hb <;>
        first | (exfalso; omega) | norm_num at hab
    · exact Or.inr h4
  · intro i hi
    have h2 : ({4, 5} : Set Nat).ncard = 2 := Set.ncard_pair (by decide)
    have h2' : ({0, 1} : Set Nat).ncard = 2 := Set.ncard_pair (by decide)
    have hfin : Set.Finite {j | Connected (gHits.map toaNsQ) 100 i j} := by
      refine (Set.finite_lt_nat 6).subset fun j hj => ?_
      rcases Relation.ReflTransGen.cases_tail hj with h | ⟨t, -, a, b, -, hb, -⟩
      · rw [h]; exact hi
      · exact (List.getElem?_eq_some_iff.mp hb).1
    show 2 ≤ _
    by_cases h4 : i < 4
    · rw [← h2']
      refine Set.ncard_le_ncard ?_ hfin
      rintro j (rfl | rfl)
      · exact (gHits_connected i 0 hi (by omega)).mpr (by omega)
      · exact (gHits_connected i 1 hi (by omega)).mpr (by omega)
    · rw [← h2]
      refine Set.ncard_le_ncard ?_ hfin
      rintro j (rfl | rfl)
      · exact (gHits_connected i 4 hi (by omega)).mpr (by omega)
      · exact (gHits_connected i 5 hi (by omega)).mpr (by omega)

end Verif.Props
