import Verif.Props.DbscanFit

/-!
# Labels and events of `DBSCAN::fit` (C61-C63)
-/

namespace Verif.Props

open Verif Verif.Spec

theorem toInt32_small {n : Nat} (h : n < 2 ^ 31) : toInt32 n = n := by
  unfold toInt32
  rw [BitVec.toInt_ofNat']
  simp only [Int.bmod, Nat.reducePow] at *
  split_ifs <;> omega

theorem toInt32_sizeMax : toInt32 sizeMax = -1 := by decide

/-- The label written for a hit. -/
def encLabel (k off l : Nat) : Int := toInt32 (if isNoise k l then sizeMax else l + off)

theorem encLabel_eq {k off l : Nat} (hk : k < sizeMax) (hl : l = sizeMax ∨ l < k) (h : off + k < 2 ^ 31) :
    encLabel k off l = if l = sizeMax then -1 else ((l + off : Nat) : Int) := by
  unfold encLabel
  by_cases h1 : l = sizeMax
  · rw [if_pos ((isNoise_iff hk hl).mpr h1), if_pos h1, toInt32_sizeMax]
  · rw [if_neg (fun hc => h1 ((isNoise_iff hk hl).mp hc)), if_neg h1, toInt32_small (by have := hl.resolve_left h1; omega)]

theorem setLabels_ok (k off : Nat) (idx : List Nat) : ∀ (ls : List Nat) (ii : Nat) (out : List Int),
    ii + ls.length ≤ idx.length → idx.Nodup → (∀ j ∈ idx, j < out.length) → (∀ j ∈ idx.drop ii, out[j]? = some (-1)) →
    ∃ out', setLabels k off idx ls ii out = .ok out' ∧ out'.length = out.length ∧
      (∀ j, j ∉ idx.drop ii → out'[j]? = out[j]?) ∧
      (∀ v : Int, v ≠ -1 → out'.count v = out.count v + (ls.map (encLabel k off)).count v) ∧
      (∀ x ∈ out', x ∈ out ∨ x ∈ ls.map (encLabel k off))
  | [], ii, out, _, _, _, _ => ⟨out, rfl, rfl, fun _ _ => rfl, by simp, fun x hx => Or.inl hx⟩
  | l :: ls, ii, out, hlen, hnd, hb, hm => by
    have hii : ii < idx.length := by simp at hlen; omega
    have hdrop : idx.drop ii = idx[ii] :: idx.drop (ii + 1) := List.drop_eq_getElem_cons hii
    have hjb := hb idx[ii] (List.getElem_mem hii)
    have hj := hm idx[ii] (by rw [hdrop]; exact List.mem_cons_self)
    have hj' : out[idx[ii]] = -1 := by
      rw [List.getElem?_eq_getElem hjb] at hj
      exact Option.some.inj hj
    have hnotin : idx[ii] ∉ idx.drop (ii + 1) := by
      have := hnd.sublist (List.drop_sublist ii idx)
      rw [hdrop] at this
      exact (List.nodup_cons.mp this).1
    unfold setLabels
    rw [List.getElem?_eq_getElem hii]
    simp only
    rw [if_pos hjb]
    obtain ⟨out', h1, h2, h3, h4, h5⟩ := setLabels_ok k off idx ls (ii + 1)
      (out.set idx[ii] (encLabel k off l)) (by simp at hlen; omega) hnd (by simpa using hb)
      (by
        intro j hj2
        rw [List.getElem?_set, if_neg (fun h => hnotin (by rw [h]; exact hj2))]
        exact hm j (by rw [hdrop]; exact List.mem_cons_of_mem _ hj2))
    refine ⟨out', h1, by simpa using h2, ?_, ?_, ?_⟩
    · intro j hj2
      rw [hdrop] at hj2
      simp only [List.mem_cons, not_or] at hj2
      rw [h3 j hj2.2, List.getElem?_set, if_neg (fun h => hj2.1 h.symm)]
    · intro v hv
      rw [h4 v hv, List.count_set hjb, hj', List.map_cons, List.count_cons]
      have : ((-1 : Int) == v) = false := by simpa using Ne.symm hv
      rw [this]
      simp only [Bool.false_eq_true, if_false]
      omega
    · intro x hx
      rcases h5 x hx with h | h
      · rcases List.mem_or_eq_of_mem_set h with h | h
        · exact Or.inl h
        · right; rw [h]; simp
      · right; simp at h ⊢; tauto

theorem countedLabels_eq {α : Type} {L : Labelling α} {n : Nat} (h : WellLabelled L n) :
    countedLabels L.k L.labels = List.range L.k := by
  unfold countedLabels
  have hp : ((L.labels.filter fun l => !isNoise L.k l).dedup.mergeSort (· ≤ ·)).Perm (List.range L.k) := by
    refine (List.mergeSort_perm _ _).trans ?_
    rw [List.perm_ext_iff_of_nodup (List.nodup_dedup _) List.nodup_range]
    intro l
    rw [List.mem_dedup, List.mem_filter, List.mem_range]
    constructor
    · rintro ⟨h1, h2⟩
      rcases h.range l h1 with h3 | h3
      · rw [(isNoise_iff h.small (Or.inl h3)).mpr h3] at h2
        simp at h2
      · exact h3
    · intro h1
      refine ⟨h.used l h1, ?_⟩
      have : ¬ isNoise L.k l = true := by
        rw [isNoise_iff h.small (Or.inr h1)]
        have := h.small
        omega
      simpa using this
  refine hp.eq_of_pairwise (le := (· ≤ ·)) (fun a b _ _ h1 h2 => Nat.le_antisymm h1 h2) ?_ List.pairwise_le_range
  have := List.pairwise_mergeSort (le := fun a b : Nat => decide (a ≤ b)) (by simp; omega) (by simp; omega)
    (L.labels.filter fun l => !isNoise L.k l).dedup
  simpa using this

theorem xyEvents_ok (mean : F64) (L : Labelling (F64 × F64)) : ∀ ls : List Nat, (∀ l ∈ ls, l < L.centroids.length) →
    ∃ es, xyEvents mean L ls = .ok es ∧ es.length = ls.length ∧
      (∀ m l : Nat, ls[m]? = some l → ∃ ev p, es[m]? = some ev ∧ L.centroids[l]? = some p ∧
        ev = (⟨F64.mul p.1 (.fin 1), F64.mul p.2 (.fin 1), mean, .fin 0, toInt32 (L.labels.count l)⟩ : NEvent))
  | [], _ => ⟨[], rfl, rfl, by simp⟩
  | l :: ls, h => by
    obtain ⟨es, h1, h2, h3⟩ := xyEvents_ok mean L ls fun x hx => h x (by simp [hx])
    have hl := h l (by simp)
    unfold xyEvents
    rw [List.getElem?_eq_getElem hl, h1]
    refine ⟨_, rfl, by simp [h2], ?_⟩
    intro m x hx
    cases m with
    | zero =>
      have : l = x := by simpa using hx
      subst this
      exact ⟨_, _, rfl, List.getElem?_eq_getElem hl, rfl⟩
    | succ m =>
      obtain ⟨ev, p, a, b, d⟩ := h3 m x (by simpa using hx)
      exact ⟨ev, p, by simpa using a, b, d⟩

theorem xyPoints_ok (hits : List Hit) : ∀ idx : List Nat, (∀ i ∈ idx, i < hits.length) →
    ∃ ps, xyPoints hits idx = .ok ps ∧ ps.length = idx.length
  | [], _ => ⟨[], rfl, rfl⟩
  | i :: is, h => by
    obtain ⟨ps, h1, h2⟩ := xyPoints_ok hits is fun x hx => h x (by simp [hx])
    unfold xyPoints
    rw [List.getElem?_eq_getElem (h i (by simp)), h1]
    exact ⟨_, rfl, by simp [h2]⟩

theorem fitXY_ok (c : DbCtx) (hits : List Hit) (h2 : ∀ ps, ps ≠ [] → WellLabelled (c.fit2D ps) ps.length)
    (hn : hits.length < 2 ^ 31) : ∀ (infos : List TimeInfo) (off : Nat) (labels : List Int) (events : List NEvent),
    (∀ o ∈ infos, o.idx ≠ []) → (infos.flatMap TimeInfo.idx).Nodup →
    (∀ i ∈ infos.flatMap TimeInfo.idx, i < hits.length) → labels.length = hits.length → events.length = off →
    LabelsAgree labels events → (∀ i ∈ infos.flatMap TimeInfo.idx, labels[i]? = some (-1)) →
    off + (infos.flatMap TimeInfo.idx).length ≤ hits.length →
    ∃ labels' events', fitXY c hits infos off labels events = .ok (labels', events') ∧
      labels'.length = hits.length ∧ LabelsAgree labels' events' ∧
      (∀ i, i ∉ infos.flatMap TimeInfo.idx → labels'[i]? = labels[i]?) ∧
      (∀ ev ∈ events', ev ∈ events ∨ ∃ o ∈ infos, ev.tof = o.mean ∧ ev.tot = .fin 0)
  | [], off, labels, events, _, _, _, hlen, _, ha, _, _ =>
    ⟨labels, events, rfl, hlen, ha, fun _ _ => rfl, fun _ h => Or.inl h⟩
  | info :: infos, off, labels, events, hne, hnd, hb, hlen, hoff, ha, hm, hsz => by
    rw [List.flatMap_cons] at hnd hb hm hsz
    obtain ⟨hnd1, hnd2, hnd3⟩ := List.nodup_append.mp hnd
    obtain ⟨ps, p1, p2⟩ := xyPoints_ok hits info.idx fun i hi => hb i (by simp [hi])
    have hpsne : ps ≠ [] := by
      intro h
      rw [h] at p2
      exact hne info (by simp) (List.length_eq_zero_iff.mp p2.symm)
    have hw := h2 ps hpsne
    have hk : (c.fit2D ps).k ≤ info.idx.length := by
      have hsub : List.range (c.fit2D ps).k ⊆ (c.fit2D ps).labels := fun j hj => hw.used j (List.mem_range.mp hj)
      have := (List.nodup_range.subperm hsub).length_le
      rw [List.length_range, hw.len, p2] at this
      exact this
    have hsz' : off + (c.fit2D ps).k < 2 ^ 31 := by rw [List.length_append] at hsz; omega
    unfold fitXY
    rw [p1]
    simp only [Res.bind]
    generalize c.fit2D ps = L at *
    obtain ⟨lab1, s1, s2, s3, s4, s5⟩ := setLabels_ok L.k off info.idx L.labels 0 labels (by rw [hw.len, p2]; omega) hnd1
      (fun j hj => hlen ▸ hb j (by simp [hj])) (fun j hj => hm j (by simp at hj ⊢; exact Or.inl hj))
    rw [s1]
    simp only
    rw [countedLabels_eq hw]
    obtain ⟨es, v1, v2, v3⟩ := xyEvents_ok info.mean L (List.range L.k) fun l hl => by
      rw [hw.centroids]; exact List.mem_range.mp hl
    rw [v1]
    simp only
    rw [List.length_range] at v2
    -- the counts after this step
    have hcount : ∀ m : Nat, m < off → lab1.count (m : Int) = labels.count (m : Int) := by
      intro m hmo
      rw [s4 _ (by omega)]
      have : (L.labels.map (encLabel L.k off)).count (m : Int) = 0 := by
        rw [List.count_eq_zero]
        intro hc
        obtain ⟨l, hl, e⟩ := List.mem_map.mp hc
        rw [encLabel_eq hw.small (hw.range l hl) hsz'] at e
        split_ifs at e
        all_goals omega
      omega
    have hcount' : ∀ l : Nat, l < L.k → lab1.count ((off + l : Nat) : Int) = L.labels.count l := by
      intro l hl
      rw [s4 _ (by omega)]
      have h0 : labels.count ((off + l : Nat) : Int) = 0 := by
        rw [List.count_eq_zero]
        intro hc
        rcases ha.range _ hc with h | h <;> omega
      rw [h0, Nat.zero_add, List.count_eq_countP, List.count_eq_countP, List.countP_map]
      apply List.countP_congr
      intro x hx
      simp only [Function.comp, beq_iff_eq]
      rw [encLabel_eq hw.small (hw.range x hx) hsz']
      have := hw.small
      split_ifs with h
      · constructor <;> intro h' <;> first | exact h'.elim | omega
      · constructor <;> intro h' <;> omega
    have ha1 : LabelsAgree lab1 (events ++ es) := by
      constructor
      · intro x hx
        rw [List.length_append, hoff, v2]
        rcases s5 x hx with h | h
        · rcases ha.range x h with h | h
          · exact Or.inl h
          · right; omega
        · obtain ⟨l, hl, e⟩ := List.mem_map.mp h
          rw [encLabel_eq hw.small (hw.range l hl) hsz'] at e
          split_ifs at e with hc
          · exact Or.inl e.symm
          · have := (hw.range l hl).resolve_left hc
            right; omega
      · intro m ev hev
        by_cases hmo : m < off
        · rw [List.getElem?_append_left (by omega)] at hev
          rw [hcount m hmo]
          exact ha.counts m ev hev
        · rw [List.getElem?_append_right (by omega), hoff] at hev
          have hml : m - off < L.k := by
            have := (List.getElem?_eq_some_iff.mp hev).1
            omega
          obtain ⟨ev', p, a1, a2, a3⟩ := v3 (m - off) (m - off) (by simp [hml])
          rw [a1] at hev
          have := Option.some.inj hev
          subst this
          have hmm : m = off + (m - off) := by omega
          have hc2 := hcount' (m - off) hml
          rw [← hmm] at hc2
          rw [hc2, a3]
          have hpos : 0 < L.labels.count (m - off) := List.count_pos_iff.mpr (hw.used _ hml)
          refine ⟨?_, hpos⟩
          refine toInt32_small ?_
          have h1 := List.count_le_length (a := m - off) (l := L.labels)
          rw [hw.len, p2] at h1
          rw [List.length_append] at hsz
          omega
    obtain ⟨L', E', r1, r2, r3, r4, r5⟩ := fitXY_ok c hits h2 hn infos (off + L.k) lab1 (events ++ es)
      (fun o ho => hne o (by simp [ho])) hnd2 (fun i hi => hb i (by rw [List.mem_append]; exact Or.inr hi))
      (by rw [s2, hlen]) (by rw [List.length_append, v2, hoff]) ha1
      (by
        intro i hi
        rw [s3 i (by
          intro hc
          rw [List.drop_zero] at hc
          exact hnd3 i hc i hi rfl)]
        exact hm i (by rw [List.mem_append]; exact Or.inr hi))
      (by rw [List.length_append] at hsz; omega)
    refine ⟨L', E', r1, r2, r3, ?_, ?_⟩
    · intro i hi
      rw [List.flatMap_cons, List.mem_append, not_or] at hi
      rw [r4 i hi.2, s3 i (by rw [List.drop_zero]; exact hi.1)]
    · intro ev hev
      rcases r5 ev hev with h | ⟨o, ho, h⟩
      · rcases List.mem_append.mp h with h | h
        · exact Or.inl h
        · right
          refine ⟨info, by simp, ?_⟩
          obtain ⟨m, hm'⟩ := List.getElem?_of_mem h
          have hml := (List.getElem?_eq_some_iff.mp hm').1
          obtain ⟨ev', p, a1, a2, a3⟩ := v3 m m (List.getElem?_range (by omega))
          rw [a1] at hm'
          have := Option.some.inj hm'
          subst this
          rw [a3]
          exact ⟨rfl, rfl⟩
      · exact Or.inr ⟨o, by simp [ho], h⟩

theorem resizeLabels_length (n : Nat) (l : List Int) : (resizeLabels n l).length = n := by
  simp [resizeLabels]; omega

/-- C61, for a new object: every label is `-1` or the number of an event, and every event counts the hits that carry its
number.  What is missing is an object that has been used before; see `c61_false`. -/
theorem c61_new_partial (c : DbCtx) (e : ℚ) (he : FiniteDouble e) (he0 : 0 ≤ e) (hc : c.epsTime = .fin e)
    (hsort : SortsByStart c.sort) (hm : Dbscan1D c.fit1D e)
    (h2 : ∀ ps, ps ≠ [] → WellLabelled (c.fit2D ps) ps.length) (hits : List Hit)
    (hz : ∀ h ∈ hits, 0 ≤ h.toa ∧ h.toa < 16384) (hn : hits.length < 2 ^ 31) :
    ∃ s', dbFit c DbState.init hits = .ok s' ∧ s'.labels.length = hits.length ∧ LabelsAgree s'.labels s'.events := by
  unfold dbFit dbFitWith
  by_cases hne : hits = []
  · subst hne
    exact ⟨_, rfl, rfl, ⟨by simp [DbState.init, resizeLabels], by simp⟩⟩
  simp only [if_neg hne]
  obtain ⟨out, h1, hcomp, _⟩ := c60_components c e he he0 hc hsort hm maxHitChunkSize (by decide) hits hne hz
  have hT : (hits.map toaNsQ).length = hits.length := by simp
  have hnd : (out.flatMap TimeInfo.idx).Nodup := by rw [List.flatMap_def]; exact hcomp.nodup
  have hb : ∀ i ∈ out.flatMap TimeInfo.idx, i < hits.length := by
    intro i hi
    obtain ⟨o, ho, hio⟩ := List.mem_flatMap.mp hi
    rw [← hT]
    exact hcomp.bound _ (List.mem_map_of_mem ho) i hio
  have hinit : resizeLabels hits.length DbState.init.labels = List.replicate hits.length (-1) := by
    simp [resizeLabels, DbState.init]
  rw [h1, hinit]
  obtain ⟨L, E, r1, r2, r3, _⟩ := fitXY_ok c hits h2 hn out 0 (List.replicate hits.length (-1)) []
    (fun o ho => hcomp.ne _ (List.mem_map_of_mem ho)) hnd hb (by simp) rfl
    ⟨fun l hl => Or.inl (List.eq_of_mem_replicate hl), by simp⟩
    (fun i hi => by rw [List.getElem?_replicate, if_pos (hb i hi)])
    (by
      have hsub : (out.flatMap TimeInfo.idx) ⊆ List.range hits.length := fun i hi => List.mem_range.mpr (hb i hi)
      have := (hnd.subperm hsub).length_le
      rw [List.length_range] at this
      omega)
  simp only [Res.bind, r1]
  exact ⟨⟨L, E⟩, rfl, r2, r3⟩

/-! ## History -/

theorem setLabels_same (k off : Nat) (idx : List Nat) : ∀ (ls : List Nat) (ii : Nat) (o1 o2 : List Int),
    o1.length = o2.length →
    (∃ r1 r2, setLabels k off idx ls ii o1 = .ok r1 ∧ setLabels k off idx ls ii o2 = .ok r2 ∧ r1.length = r2.length) ∨
      ∃ u, setLabels k off idx ls ii o1 = .ub u ∧ setLabels k off idx ls ii o2 = .ub u
  | [], _, o1, o2, h => Or.inl ⟨o1, o2, rfl, rfl, h⟩
  | l :: ls, ii, o1, o2, h => by
    unfold setLabels
    match idx[ii]? with
    | none => exact Or.inr ⟨_, rfl, rfl⟩
    | some j =>
      simp only
      by_cases hj : j < o1.length
      · have hj2 : j < o2.length := h ▸ hj
        rw [if_pos hj, if_pos hj2]
        exact setLabels_same k off idx ls (ii + 1) _ _ (by simpa using h)
      · have hj2 : ¬ j < o2.length := h ▸ hj
        rw [if_neg hj, if_neg hj2]
        exact Or.inr ⟨_, rfl, rfl⟩

/-- The events in the outcome of `fit`. -/
def outcomeEvents : Res (List Int × List NEvent) → Res (List NEvent)
  | .ok r => .ok r.2
  | .throws m => .throws m
  | .ub u => .ub u

theorem fitXY_same (c : DbCtx) (hits : List Hit) : ∀ (infos : List TimeInfo) (off : Nat) (l1 l2 : List Int)
    (events : List NEvent), l1.length = l2.length →
    outcomeEvents (fitXY c hits infos off l1 events) = outcomeEvents (fitXY c hits infos off l2 events)
  | [], _, _, _, _, _ => rfl
  | info :: infos, off, l1, l2, events, h => by
    unfold fitXY
    match xyPoints hits info.idx with
    | .throws m => rfl
    | .ub u => rfl
    | .ok ps =>
      simp only [Res.bind]
      rcases setLabels_same (c.fit2D ps).k off info.idx (c.fit2D ps).labels 0 l1 l2 h with ⟨r1, r2, e1, e2, e3⟩ | ⟨u, e1, e2⟩
      · rw [e1, e2]
        simp only
        match xyEvents info.mean (c.fit2D ps) (countedLabels (c.fit2D ps).k (c.fit2D ps).labels) with
        | .throws m => rfl
        | .ub u => rfl
        | .ok es => exact fitXY_same c hits infos _ r1 r2 _ e3
      · rw [e1, e2]

/-- The events of a state, as an outcome. -/
def stateEvents (r : Res DbState) : Res (List NEvent) := r.bind fun s => .ok s.events

/-- C62.  The events that `fit` leaves do not depend on what the object was used for before. -/
theorem c62_events (c : DbCtx) (s s' : DbState) (hits : List Hit) :
    stateEvents (dbFit c s hits) = stateEvents (dbFit c s' hits) := by
  unfold dbFit dbFitWith
  by_cases hne : hits = []
  · simp only [if_pos hne]; rfl
  · simp only [if_neg hne]
    match timeClusters c maxHitChunkSize hits with
    | .throws m => rfl
    | .ub u => rfl
    | .ok infos =>
      have h := fitXY_same c hits infos 0 (resizeLabels hits.length s.labels) (resizeLabels hits.length s'.labels) []
        (by rw [resizeLabels_length, resizeLabels_length])
      simp only [Res.bind]
      revert h
      generalize fitXY c hits infos 0 (resizeLabels hits.length s.labels) [] = r1
      generalize fitXY c hits infos 0 (resizeLabels hits.length s'.labels) [] = r2
      intro h
      cases r1 <;> cases r2 <;> simp_all [outcomeEvents, stateEvents, Res.bind]

/-- C62, for `get_events`: right after `reset` or on a new object the events are those of the hits given. -/
theorem c62_get_events_partial (c : DbCtx) (s : DbState) (hits : List Hit) :
    (dbGetEvents c s.reset hits).bind (fun r => .ok r.1) = stateEvents (dbFit c DbState.init hits) := by
  rw [c62_events c DbState.init s.reset hits]
  simp only [dbGetEvents, DbState.reset, List.length_nil, if_true]
  cases dbFit c { s with events := [] } hits <;> rfl

/-! ## Arrival times -/

/-- What DBSCAN looks at in a hit. -/
def seen (h : Hit) : Int × Int × Int := (h.x, h.y, h.toa)

theorem xyPoints_seen {a b : List Hit} (h : a.map seen = b.map seen) (idx : List Nat) : xyPoints a idx = xyPoints b idx := by
  induction idx with
  | nil => rfl
  | cons i is ih =>
    have hi := congrArg (·[i]?) h
    simp only [List.getElem?_map] at hi
    unfold xyPoints
    rw [ih]
    match ha : a[i]?, hb : b[i]? with
    | none, none => rfl
    | some x, none => rw [ha, hb] at hi; simp at hi
    | none, some y => rw [ha, hb] at hi; simp at hi
    | some x, some y =>
      rw [ha, hb] at hi
      simp only [Option.map_some, Option.some.injEq, seen, Prod.mk.injEq] at hi
      simp only [hi.1, hi.2.1]

theorem fitXY_seen (c : DbCtx) {a b : List Hit} (h : a.map seen = b.map seen) : ∀ (infos : List TimeInfo) (off : Nat)
    (l : List Int) (events : List NEvent), fitXY c a infos off l events = fitXY c b infos off l events
  | [], _, _, _ => rfl
  | info :: infos, off, l, events => by
    unfold fitXY
    rw [xyPoints_seen h]
    simp only [fitXY_seen c h infos]

/-- C63, what holds instead: `fit` sees only the position and the 14-bit counter of a hit.  Hits with the same counter are
treated as simultaneous whatever their full arrival times, and the times of flight play no part. -/
theorem c63_blind (c : DbCtx) (s : DbState) (a b : List Hit) (h : a.map seen = b.map seen) : dbFit c s a = dbFit c s b := by
  have hlen : a.length = b.length := by simpa using congrArg List.length h
  have htoa : a.map Hit.toaNs = b.map Hit.toaNs := by
    have h1 := congrArg (List.map fun p : Int × Int × Int => F64.mul (F64.ofInt p.2.2) (F64.ofRat 25)) h
    rw [List.map_map, List.map_map] at h1
    exact h1
  have hnil : a = [] ↔ b = [] := by
    rw [← List.length_eq_zero_iff, ← List.length_eq_zero_iff, hlen]
  unfold dbFit dbFitWith timeClusters
  rw [hlen, htoa]
  simp only [hnil, fitXY_seen c h]

/-! ## Witnesses -/

/-- `std::sort` by the start of the interval. -/
def sortByStart (l : List TimeInfo) : List TimeInfo := l.mergeSort fun a b => decide (val a.tmin ≤ val b.tmin)

theorem sortByStart_sorts : SortsByStart sortByStart := by
  intro l _
  refine ⟨List.mergeSort_perm _ _, ?_⟩
  have := List.pairwise_mergeSort (le := fun a b : TimeInfo => decide (val a.tmin ≤ val b.tmin))
    (by intro a b c h1 h2; simp only [decide_eq_true_eq] at *; linarith)
    (by intro a b; simp only [Bool.or_eq_true, decide_eq_true_eq]; exact le_total _ _) l
  simpa [sortByStart] using this

/-- A labelling for equal points (one cluster) and for others (all noise). -/
def eqFit {α : Type} [DecidableEq α] : List α → Labelling α
  | [] => ⟨0, [], []⟩
  | t :: ts => if ts.all (· = t) then ⟨1, List.replicate (ts.length + 1) 0, [t]⟩
    else ⟨0, List.replicate (ts.length + 1) sizeMax, []⟩

theorem eqFit_good {α : Type} [DecidableEq α] (ts : List α) (h : ts ≠ []) : WellLabelled (eqFit ts) ts.length := by
  match ts with
  | [] => exact absurd rfl h
  | t :: ts =>
    simp only [eqFit]
    split_ifs
    · refine ⟨by simp, fun l hl => Or.inr ?_, fun j hj => ?_, by simp [sizeMax], rfl⟩
      · rw [List.eq_of_mem_replicate hl]; simp
      · simp at hj; simp [hj]
    · exact ⟨by simp, fun l hl => Or.inl (List.eq_of_mem_replicate hl), fun j hj => absurd hj (Nat.not_lt_zero j),
        by simp [sizeMax], rfl⟩

theorem eqFit_dbscan {e : ℚ} (he : 0 ≤ e) : Dbscan1D eqFit e := by
  refine ⟨eqFit_good, ?_⟩
  intro ts hne i j l hi hj hl
  match ts with
  | [] => exact absurd rfl hne
  | t :: ts =>
    simp only [eqFit] at hi hj
    split_ifs at hi hj with hall
    · have hv : ∀ m : Nat, m < ts.length + 1 → ((t :: ts).map val)[m]? = some (val t) := by
        intro m hm
        cases m with
        | zero => rfl
        | succ m =>
          simp only [List.map_cons, List.getElem?_cons_succ, List.getElem?_map]
          rw [List.getElem?_eq_getElem (by omega)]
          have := List.all_eq_true.mp hall _ (List.getElem_mem (by omega : m < ts.length))
          simp only [decide_eq_true_eq] at this
          simp [this]
      have h1 := (List.getElem?_eq_some_iff.mp hi).1
      have h2 := (List.getElem?_eq_some_iff.mp hj).1
      simp only [List.length_replicate] at h1 h2
      exact .single ⟨_, _, hv i h1, hv j h2, by simpa using he⟩
    · exfalso
      rw [List.getElem?_replicate] at hi
      split_ifs at hi
      exact hl (Option.some.inj hi).symm

/-- Within 100 ns, at least two points. -/
def wCtx : DbCtx := ⟨.fin 100, 2, eqFit, eqFit, sortByStart⟩

/-- A hit at pixel (10, 20) with a given counter, time of flight and full arrival time. -/
def wHit (toa : Int) (tof : U32) (sp : U64) : Hit := ⟨10, 20, 5, toa, 0, some tof, sp⟩

theorem wHit_toaNs {n : Int} (h0 : 0 ≤ n) (h1 : n < 16384) (tof : U32) (sp : U64) :
    (wHit n tof sp).toaNs = .fin ((25 * n : ℤ) : ℚ) := by
  have := toaNs_map (hits := [wHit n tof sp]) (by intro t ht; simp [wHit] at ht; omega)
  simp only [List.map_cons, List.map_nil, nsOf, List.cons.injEq, and_true] at this
  rw [this]
  simp [wHit]

theorem add_int' {a b : ℤ} (h : |a + b| ≤ 2 ^ 53) : F64.add (.fin (a : ℚ)) (.fin (b : ℚ)) = .fin ((a + b : ℤ) : ℚ) := by
  show F64.ofRat ((a : ℚ) + b) = _
  rw [← Int.cast_add, F64.ofRat_int h]

/-- Two hits with the counter 4 make one time cluster. -/
theorem wTimeTwo (t1 t2 : U32) (s1 s2 : U64) :
    timeClusters wCtx maxHitChunkSize [wHit 4 t1 s1, wHit 4 t2 s2] =
      .ok [⟨.fin 100, .fin 200, .fin 100, .fin 100, [0, 1]⟩] := by
  have e1 : (wHit 4 t1 s1).toaNs = .fin 100 := by rw [wHit_toaNs (by norm_num) (by norm_num)]; norm_num
  have e2 : (wHit 4 t2 s2).toaNs = .fin 100 := by rw [wHit_toaNs (by norm_num) (by norm_num)]; norm_num
  have hmin : stdMin dblMax (.fin 100) = .fin 100 := by
    have := counter_lt_dblMax (n := 4) (by norm_num)
    unfold stdMin
    rw [show (.fin 100 : F64) = .fin (25 * ((4 : ℤ) : ℚ)) by norm_num, if_pos this]
  have hmax : stdMax dblMin (.fin 100) = .fin 100 := by
    unfold stdMax
    rw [if_pos]
    simp only [dblMin, F64.lt, decide_eq_true_eq]
    linarith [dblMin_bounds.2]
  have hmin' : stdMin (.fin 100) (.fin 100) = .fin 100 := by simp [stdMin]
  have hmax' : stdMax (.fin 100) (.fin 100) = .fin 100 := by simp [stdMax]
  have ha1 : F64.add (.fin 0) (.fin 100) = .fin 100 := by
    have := add_int' (a := 0) (b := 100) (by norm_num)
    simpa using this
  have ha2 : F64.add (.fin 100) (.fin 100) = .fin 200 := by
    have := add_int' (a := 100) (b := 100) (by norm_num)
    norm_num at this
    exact this
  have hdiv : F64.div (.fin 200) (F64.ofInt 2) = .fin 100 := by
    rw [F64.ofInt_exact (by norm_num)]
    unfold F64.div
    simp only
    rw [if_neg (by norm_num)]
    have := F64.ofRat_int (n := 100) (by norm_num)
    norm_num at this ⊢
    exact this
  have hfit : eqFit [F64.fin 100, F64.fin 100] = ⟨1, [0, 0], [.fin 100]⟩ := by simp [eqFit]
  have hchunk : chunkInfos wCtx [.fin 100, .fin 100] 0 = .ok [⟨.fin 100, .fin 200, .fin 100, .fin 100, [0, 1]⟩] := by
    unfold chunkInfos
    simp only [wCtx, hfit]
    simp [assignPoints, isNoise, sizeMax, TimeInfo.addPoint, TimeInfo.empty, ha1, ha2, hmin, hmax, hmin', hmax']
  unfold timeClusters
  simp only [List.map_cons, List.map_nil, e1, e2]
  have hfc : fitChunks wCtx maxHitChunkSize 3 0 [.fin 100, .fin 100] [] =
      .ok [⟨.fin 100, .fin 200, .fin 100, .fin 100, [0, 1]⟩] := by
    unfold fitChunks
    have h1 : [F64.fin 100, F64.fin 100].take maxHitChunkSize = [.fin 100, .fin 100] :=
      List.take_of_length_le (by simp [maxHitChunkSize])
    have h2 : [F64.fin 100, F64.fin 100].drop maxHitChunkSize = [] := List.drop_eq_nil_of_le (by simp [maxHitChunkSize])
    rw [h1, h2, hchunk]
    simp [Res.bind]
  simp only [List.length_cons, List.length_nil]
  rw [hfc]
  simp [Res.bind, mergeTimeClusters1D, wCtx, sortByStart, mergeGo, TimeInfo.flush, hdiv]

/-- Two hits 2500 ns apart make none. -/
theorem wTimeNone (t1 t2 : U32) (s1 s2 : U64) :
    timeClusters wCtx maxHitChunkSize [wHit 0 t1 s1, wHit 100 t2 s2] = .ok [] := by
  have e1 : (wHit 0 t1 s1).toaNs = .fin 0 := by rw [wHit_toaNs (by norm_num) (by norm_num)]; norm_num
  have e2 : (wHit 100 t2 s2).toaNs = .fin 2500 := by rw [wHit_toaNs (by norm_num) (by norm_num)]; norm_num
  have hfit : eqFit [F64.fin 0, F64.fin 2500] = ⟨0, [sizeMax, sizeMax], []⟩ := by simp [eqFit]
  have hsub : F64.sub (.fin 2500) (.fin 0) = .fin 2500 := by
    have := add_int' (a := 2500) (b := 0) (by norm_num)
    simpa [F64.sub, F64.neg] using this
  have hchunk : chunkInfos wCtx [.fin 0, .fin 2500] 0 =
      .ok [TimeInfo.single (.fin 0) 0, TimeInfo.single (.fin 2500) 1] := by
    unfold chunkInfos
    simp only [wCtx, hfit]
    simp [assignPoints, isNoise]
  unfold timeClusters
  simp only [List.map_cons, List.map_nil, e1, e2]
  have hfc : fitChunks wCtx maxHitChunkSize 3 0 [.fin 0, .fin 2500] [] =
      .ok [TimeInfo.single (.fin 0) 0, TimeInfo.single (.fin 2500) 1] := by
    unfold fitChunks
    have h1 : [F64.fin 0, F64.fin 2500].take maxHitChunkSize = [.fin 0, .fin 2500] :=
      List.take_of_length_le (by simp [maxHitChunkSize])
    have h2 : [F64.fin 0, F64.fin 2500].drop maxHitChunkSize = [] := List.drop_eq_nil_of_le (by simp [maxHitChunkSize])
    rw [h1, h2, hchunk]
    simp [Res.bind]
  simp only [List.length_cons, List.length_nil]
  rw [hfc]
  have hs : sortByStart [TimeInfo.single (.fin 0) 0, TimeInfo.single (.fin 2500) 1] =
      [TimeInfo.single (.fin 0) 0, TimeInfo.single (.fin 2500) 1] := by
    unfold sortByStart
    rw [List.mergeSort_of_pairwise]
    simp [TimeInfo.single, val]
  simp only [Res.bind, mergeTimeClusters1D, wCtx, hs]
  have hnear : (TimeInfo.single (.fin 0) 0).near (.fin 100) (TimeInfo.single (.fin 2500) 1) = false := by
    simp only [TimeInfo.near, TimeInfo.single, hsub, F64.lt, F64.le]
    norm_num
  simp only [mergeGo]
  rw [if_neg (by simp), hnear]
  simp [TimeInfo.flush, TimeInfo.single]

/-- The one event of the two hits with the counter 4. -/
def wEvent : NEvent := ⟨.fin 10, .fin 20, .fin 100, .fin 0, 2⟩

theorem wFitTwo (s : DbState) (t1 t2 : U32) (s1 s2 : U64) :
    dbFit wCtx s [wHit 4 t1 s1, wHit 4 t2 s2] = .ok ⟨[0, 0], [wEvent]⟩ := by
  unfold dbFit dbFitWith
  simp only [reduceCtorEq, if_false]
  rw [wTimeTwo]
  have hx : F64.ofInt 10 = .fin 10 := by rw [F64.ofInt_exact (by norm_num)]; norm_num
  have hy : F64.ofInt 20 = .fin 20 := by rw [F64.ofInt_exact (by norm_num)]; norm_num
  have hxm : F64.mul (.fin 10) (.fin 1) = .fin 10 := by
    have := F64.ofRat_int (n := 10) (by norm_num)
    unfold F64.mul; norm_num at this ⊢; exact this
  have hym : F64.mul (.fin 20) (.fin 1) = .fin 20 := by
    have := F64.ofRat_int (n := 20) (by norm_num)
    unfold F64.mul; norm_num at this ⊢; exact this
  have hfit : eqFit [(F64.fin 10, F64.fin 20), (F64.fin 10, F64.fin 20)] = ⟨1, [0, 0], [(.fin 10, .fin 20)]⟩ := by
    simp [eqFit]
  have hp : xyPoints [wHit 4 t1 s1, wHit 4 t2 s2] [0, 1] = .ok [(.fin 10, .fin 20), (.fin 10, .fin 20)] := by
    simp [xyPoints, wHit, Res.bind, hx, hy]
  have hl : (resizeLabels 2 s.labels).length = 2 := resizeLabels_length 2 s.labels
  simp only [Res.bind, List.length_cons, List.length_nil]
  match hL : resizeLabels 2 s.labels, hl with
  | [a, b], _ =>
    have hc : countedLabels 1 [0, 0] = [0] := by
      have := countedLabels_eq (L := (⟨1, [0, 0], [(.fin 10, .fin 20)]⟩ : Labelling (F64 × F64))) (n := 2)
        ⟨rfl, by simp, by simp, by simp [sizeMax], rfl⟩
      exact this
    have hset : setLabels 1 0 [0, 1] [0, 0] 0 [a, b] = .ok [0, 0] := by
      simp [setLabels, isNoise, sizeMax, toInt32]
    have hev : xyEvents (.fin 100) (⟨1, [0, 0], [(.fin 10, .fin 20)]⟩ : Labelling (F64 × F64)) [0] = .ok [wEvent] := by
      simp [xyEvents, Res.bind, hxm, hym, wEvent, toInt32]
    unfold fitXY
    rw [hp]
    simp only [Res.bind, wCtx, hfit, hset, hc, hev, fitXY, List.nil_append]

theorem wFitNone (s : DbState) (t1 t2 : U32) (s1 s2 : U64) :
    dbFit wCtx s [wHit 0 t1 s1, wHit 100 t2 s2] = .ok ⟨resizeLabels 2 s.labels, []⟩ := by
  unfold dbFit dbFitWith
  simp only [reduceCtorEq, if_false]
  rw [wTimeNone]
  simp [Res.bind, fitXY]

/-- C61 is false for an object that has been used before: `reset` keeps the labels and `resize` sets only new ones, so
hits that are in no cluster keep the labels of hits of an earlier call. -/
theorem c61_false : ∃ (c : DbCtx) (a b : List Hit) (s s' : DbState),
    SortsByStart c.sort ∧ Dbscan1D c.fit1D 100 ∧ c.epsTime = .fin 100 ∧
      dbFit c DbState.init a = .ok s ∧ dbFit c s.reset b = .ok s' ∧ ¬ LabelsAgree s'.labels s'.events := by
  refine ⟨wCtx, [wHit 4 0 0, wHit 4 0 0], [wHit 0 0 0, wHit 100 0 0], ⟨[0, 0], [wEvent]⟩, ⟨[0, 0], []⟩, sortByStart_sorts,
    eqFit_dbscan (by norm_num), rfl, wFitTwo .., wFitNone .., ?_⟩
  intro h
  have := h.range 0 (by simp)
  simp at this

/-- C62 is false for the labels: the same hits get other labels after another call. -/
theorem c62_false_labels : ∃ (c : DbCtx) (a b : List Hit) (s s1 s2 : DbState),
    dbFit c DbState.init a = .ok s ∧ dbFit c s.reset b = .ok s1 ∧ dbFit c DbState.init b = .ok s2 ∧ s1.labels ≠ s2.labels :=
  ⟨wCtx, [wHit 4 0 0, wHit 4 0 0], [wHit 0 0 0, wHit 100 0 0], ⟨[0, 0], [wEvent]⟩, ⟨[0, 0], []⟩, ⟨[-1, -1], []⟩,
    wFitTwo .., wFitNone .., wFitNone .., by simp⟩

/-- C62 is false for `get_events` without `reset`: the events of the earlier hits are returned for the new ones. -/
theorem c62_false_cached : ∃ (c : DbCtx) (a b : List Hit) (s : DbState) (ea eb : List NEvent),
    dbGetEvents c DbState.init a = .ok (ea, s) ∧ dbGetEvents c s b = .ok (ea, s) ∧
      stateEvents (dbFit c DbState.init b) = .ok eb ∧ ea ≠ eb := by
  refine ⟨wCtx, [wHit 4 0 0, wHit 4 0 0], [wHit 0 0 0, wHit 100 0 0], ⟨[0, 0], [wEvent]⟩, [wEvent], [], ?_, ?_, ?_, by simp⟩
  · simp only [dbGetEvents, DbState.init, List.length_nil, if_true]
    rw [wFitTwo]
    rfl
  · simp [dbGetEvents]
  · rw [wFitNone]; rfl

/-- C63 is false: two hits that arrive any number of counter periods apart are one event, whose "time of flight" is the
mean of the 14-bit counters in nanoseconds whatever the times of flight of the hits are. -/
theorem c63_false (tof1 tof2 : U32) (sp1 sp2 : U64) :
    dbFit wCtx DbState.init [wHit 4 tof1 sp1, wHit 4 tof2 sp2] = .ok ⟨[0, 0], [wEvent]⟩ :=
  wFitTwo ..

/-- The hypotheses of `c55_partition` hold for three clusters, of which the first two touch. -/
example : ∃ out, mergeTimeClusters1D wCtx [⟨.fin 0, .fin 25, .fin 1000, .fin 1025, [3]⟩, ⟨.fin 0, .fin 25, .fin 0, .fin 25, [0]⟩,
      ⟨.fin 0, .fin 175, .fin 75, .fin 100, [1, 2]⟩] = .ok out ∧
    (out.Pairwise fun a b => val a.tmax + 100 < val b.tmin) ∧ ∀ o ∈ out, 2 ≤ o.idx.length := by
  obtain ⟨out, h1, h2, h3, _⟩ := c55_partition wCtx 100 (by
    have := F64.ofRat_int (n := 100) (by norm_num)
    unfold FiniteDouble; norm_num at this ⊢; exact this) rfl sortByStart_sorts
    [⟨.fin 0, .fin 25, .fin 1000, .fin 1025, [3]⟩, ⟨.fin 0, .fin 25, .fin 0, .fin 25, [0]⟩,
      ⟨.fin 0, .fin 175, .fin 75, .fin 100, [1, 2]⟩] (by simp)
    (by intro i hi; simp at hi; rcases hi with rfl | rfl | rfl <;> exact ⟨rfl, rfl⟩)
  exact ⟨out, h1, h2, h3⟩

/-- The hypotheses of `c60_components` and `c61_new_partial` hold for the witness. -/
example : ∃ s', dbFit wCtx DbState.init [wHit 4 1 7, wHit 4 2 8, wHit 300 0 9] = .ok s' ∧ s'.labels.length = 3 ∧
    LabelsAgree s'.labels s'.events :=
  c61_new_partial wCtx 100 (by
    have := F64.ofRat_int (n := 100) (by norm_num)
    unfold FiniteDouble; norm_num at this ⊢; exact this) (by norm_num) rfl sortByStart_sorts (eqFit_dbscan (by norm_num))
    eqFit_good _ (by intro h hh; simp at hh; rcases hh with rfl | rfl | rfl <;> simp [wHit]) (by simp)

end Verif.Props
