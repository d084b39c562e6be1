import Verif.Spec.SplitNeutrons
import Verif.Props.DetectorCut

/-!
# C111: a neutron is counted once for every readout in which it leaves a mark
-/

namespace Verif.Props

open Verif Verif.Spec

variable {α : Type} [DecidableEq α]

theorem nodup_firstUses (l : List α) : (firstUses l).Nodup := List.nodup_reverse.mpr (List.nodup_dedup _)

theorem mem_firstUses {l : List α} {a : α} : a ∈ firstUses l ↔ a ∈ l := by simp [firstUses]

theorem firstUses_take (l : List α) (i : Nat) : firstUses (l.take i) <+: firstUses l := by
  unfold firstUses
  rw [List.reverse_prefix]
  conv_rhs => rw [← List.take_append_drop i l, List.reverse_append, List.dedup_append]
  exact List.suffix_union_right _ _

theorem firstUses_length (l : List α) : (firstUses l).length = l.toFinset.card := by
  rw [← List.toFinset_card_of_nodup (nodup_firstUses l)]
  congr 1
  ext a
  simp [mem_firstUses]

theorem renumber_inj {l : List α} {a b : α} (ha : a ∈ l) :
    ((firstUses l).idxOf a : Int) = ((firstUses l).idxOf b : Int) ↔ a = b := by
  rw [Nat.cast_inj]
  exact List.idxOf_inj (mem_firstUses.mpr ha)

theorem renumber_range (l : List α) : (renumber l).toFinset.card = (firstUses l).length := by
  rw [firstUses_length]
  have : (renumber l).toFinset = l.toFinset.image fun a => ((firstUses l).idxOf a : Int) := by
    ext x
    simp [renumber]
  rw [this, Finset.card_image_of_injOn]
  intro a ha b _ h
  exact (renumber_inj (by simpa using ha)).mp h

/-- The numbers are given in the order of first use. -/
theorem renumber_numbered (l : List α) : Numbered (renumber l) := by
  intro i hi
  have hi' : i < l.length := by simpa [renumber] using hi
  have htake : (renumber l).take i = (l.take i).map fun a => ((firstUses l).idxOf a : Int) := by
    rw [renumber, List.map_take]
  have hget : (renumber l)[i] = ((firstUses l).idxOf l[i] : Int) := by simp [renumber]
  rw [hget, htake]
  by_cases hm : l[i] ∈ l.take i
  · left
    exact List.mem_map.mpr ⟨_, hm, rfl⟩
  · right
    have hcard : ((l.take i).map fun a => ((firstUses l).idxOf a : Int)).toFinset.card = (firstUses (l.take i)).length := by
      rw [firstUses_length]
      have : ((l.take i).map fun a => ((firstUses l).idxOf a : Int)).toFinset =
          (l.take i).toFinset.image fun a => ((firstUses l).idxOf a : Int) := by
        ext x
        simp only [List.mem_toFinset, List.mem_map, Finset.mem_image]
      rw [this, Finset.card_image_of_injOn]
      intro a ha b _ h
      exact (renumber_inj (List.mem_of_mem_take (by simpa using ha))).mp h
    rw [hcard, Nat.cast_inj]
    obtain ⟨d, hd⟩ := firstUses_take l (i + 1)
    have hone : firstUses (l.take (i + 1)) = firstUses (l.take i) ++ [l[i]] := by
      unfold firstUses
      rw [List.take_succ_eq_append_getElem hi', List.reverse_append, List.reverse_singleton, List.singleton_append,
        List.dedup_cons_of_notMem (by simpa using hm), List.reverse_cons]
    rw [← hd, hone, List.append_assoc, List.idxOf_append_of_notMem (by rw [mem_firstUses]; exact hm)]
    simp

theorem members_renumber {hits : List Hit} {cause : List α} {a : α} :
    members hits (renumber cause) ((firstUses cause).idxOf a : Int) = hitsOfCause hits cause a := by
  unfold members hitsOfCause renumber
  rw [List.zip_map_right, List.filter_map, List.map_map]
  have hf : (Prod.fst ∘ Prod.map id fun a => ((firstUses cause).idxOf a : Int)) = (Prod.fst : Hit × α → Hit) := rfl
  rw [hf]
  congr 1
  apply List.filter_congr
  rintro ⟨h, b⟩ hb
  have hb' : b ∈ cause := (List.of_mem_zip hb).2
  simp only [Function.comp, Prod.map]
  rw [decide_eq_decide]
  exact renumber_inj hb'

/-- One event per neutron that leaves a mark, in the order of the first hits. -/
theorem visible_renumber (minSize : Nat) (hits : List Hit) (cause : List α) :
    visible minSize hits (renumber cause) =
      ((firstUses cause).filter fun a => LeavesMark minSize a (hits, cause)).map (hitsOfCause hits cause) := by
  unfold visible
  rw [renumber_range]
  have h : (List.range (firstUses cause).length).map (fun (n : Nat) => members hits (renumber cause) n) =
      (firstUses cause).map (hitsOfCause hits cause) := by
    apply List.ext_getElem
    · simp
    · intro i h1 h2
      have hi : i < (firstUses cause).length := by simpa using h2
      simp only [List.getElem_map, List.getElem_range]
      rw [← members_renumber, (nodup_firstUses cause).idxOf_getElem i hi]
  rw [h, List.filter_map]
  rfl

theorem mark_mem {minSize : Nat} {a : α} {p : List Hit × List α} (ha : LeavesMark minSize a p = true) : a ∈ p.2 := by
  by_contra hn
  have : hitsOfCause p.1 p.2 a = [] := by
    unfold hitsOfCause
    rw [List.map_eq_nil_iff, List.filter_eq_nil_iff]
    rintro ⟨h, b⟩ hb
    have hb' : b ∈ p.2 := (List.of_mem_zip hb).2
    simp only [decide_eq_true_eq]
    rintro rfl
    exact hn hb'
  simp [LeavesMark, this, total] at ha

theorem countP_firstUses (minSize : Nat) (hits : List Hit) (cause : List α) (A : List α) (hA : A.Nodup) (hsub : cause ⊆ A) :
    (visible minSize hits (renumber cause)).length = A.countP fun a => LeavesMark minSize a (hits, cause) := by
  rw [visible_renumber, List.length_map, ← List.countP_eq_length_filter]
  rw [List.countP_eq_length_filter, List.countP_eq_length_filter,
    ← List.toFinset_card_of_nodup ((nodup_firstUses cause).filter _), ← List.toFinset_card_of_nodup (hA.filter _)]
  congr 1
  ext a
  simp only [List.mem_toFinset, List.mem_filter, mem_firstUses]
  exact ⟨fun h => ⟨hsub h.1, h.2⟩, fun h => ⟨mark_mem h.2, h.2⟩⟩

omit [DecidableEq α] in
theorem countP_sum (A : List α) (f : α → Bool) : A.countP f = (A.map fun a => if f a = true then 1 else 0).sum := by
  induction A with
  | nil => rfl
  | cons a A ih => rw [List.countP_cons, List.map_cons, List.sum_cons, ih, Nat.add_comm]

theorem sum_countP (minSize : Nat) (ps : List (List Hit × List α)) (A : List α) (hA : A.Nodup) (hsub : ∀ p ∈ ps, p.2 ⊆ A) :
    (List.zipWith (visible minSize) (ps.map Prod.fst) (ps.map fun p => renumber p.2)).flatten.length =
      (A.map fun a => ps.countP (LeavesMark minSize a)).sum := by
  induction ps with
  | nil => simp
  | cons p ps ih =>
    simp only [List.map_cons, List.zipWith_cons_cons, List.flatten_cons, List.length_append]
    rw [ih fun q hq => hsub q (by simp [hq]), countP_firstUses minSize p.1 p.2 A hA (hsub p (by simp))]
    have h : (A.map fun a => (p :: ps).countP (LeavesMark minSize a)) =
        A.map fun a => ps.countP (LeavesMark minSize a) + if LeavesMark minSize a p = true then 1 else 0 := by
      apply List.map_congr_left
      intro a _
      rw [List.countP_cons]
    rw [h, List.sum_map_add, ← countP_sum, Nat.add_comm]

theorem subset_allNeutrons {ps : List (List Hit × List α)} {p : List Hit × List α} (hp : p ∈ ps) : p.2 ⊆ allNeutrons ps := by
  intro a ha
  rw [allNeutrons, List.mem_dedup, List.mem_flatMap]
  exact ⟨p, hp, ha⟩

/-- C111: the number of events of the file and of the reported total is the number of pairs of a neutron and a readout in which it leaves a
mark, whatever the size of the pieces.  `ps` are the hits of the readouts with the neutrons that caused them. -/
theorem c111_events (o : ProgramOptions) (s : Settings) (solve : List GaussRow → F64 × F64) (fuel : Nat) (rs : List Readout)
    (hrs : rs ≠ []) (hok : ∀ r ∈ rs, r.Ok) (hsig : ∀ r ∈ rs, ∀ s ∈ r.signals, SignalOk s) (n : Nat) (hn0 : 0 < n)
    (hsize : o.chunkSize = 8 * n) (htime : TimelyFile o.mode ⟨0, 0⟩ (keptReadouts n 0 rs))
    (w : Outputs) (h : mainCore o s solve (fun _ => {}) fuel (detectorFile rs) = .ok (.finished w))
    (r : ℚ) (hp : s.params.feature = .fin r) (hr : |r| ≤ 2 ^ 20) (hrange : s.params.range < 2 ^ 64)
    (ht : o.mode = .tdc → ∀ hs ∈ trueReadouts false ⟨0, 0⟩ (keptReadouts n 0 rs), ∀ x ∈ hs, ∃ t, x.tof = some t ∧ t.toNat < 2 ^ 22)
    (ps : List (List Hit × List α)) (hps : ps.map Prod.fst = trueReadouts (needsClock o.mode) ⟨0, 0⟩ (keptReadouts n 0 rs))
    (hres : ∀ p ∈ ps, Resolved s.params.range r p.1 (renumber p.2)) :
    w.totalNeutrons.toNat = marks s.params.minSize ps % 2 ^ 64 ∧
    (o.outEvents ≠ [] → (marks s.params.minSize ps = 0 → w.events = []) ∧ (marks s.params.minSize ps ≠ 0 →
      ∀ v ∈ neutronAttrs, ∃ col, column w.events "neutrons".toList v.1 = some col ∧ col.length = marks s.params.minSize ps)) := by
  have hcount := sum_countP s.params.minSize ps (allNeutrons ps) (List.nodup_dedup _) fun p hp => subset_allNeutrons hp
  have hF : List.Forall₂ (Resolved s.params.range r) (ps.map Prod.fst) (ps.map fun p => renumber p.2) := by
    rw [List.forall₂_map_left_iff, List.forall₂_map_right_iff, List.forall₂_same]
    exact hres
  rw [hps] at hF hcount
  obtain ⟨es, h1, h2, h3⟩ := c110_events_partial o s solve fuel rs hrs hok hsig n hn0 hsize htime w h r hp hr hrange ht _ hF
  have hlen : es.length = marks s.params.minSize ps := by
    rw [← h1.length_eq, hcount]
    rfl
  refine ⟨by rw [h2, hlen], fun ho => ⟨fun h0 => (h3 ho).1 (List.eq_nil_of_length_eq_zero (by rw [hlen, h0])), fun h0 v hv => ?_⟩⟩
  have hne : es ≠ [] := by
    rintro rfl
    exact h0 hlen.symm
  exact ⟨_, (h3 ho).2 hne v hv, by rw [List.length_map, hlen]⟩

/-- C111: at least as many as there are neutrons that leave a mark anywhere. -/
theorem c111_atleast (minSize : Nat) (ps : List (List Hit × List α)) :
    ((allNeutrons ps).countP fun a => ps.any (LeavesMark minSize a)) ≤ marks minSize ps := by
  rw [countP_sum, marks]
  apply List.sum_le_sum
  intro a _
  split_ifs with h
  · rw [List.any_eq_true] at h
    obtain ⟨p, hp, hm⟩ := h
    exact List.countP_pos_iff.mpr ⟨p, hp, hm⟩
  · omega

omit [DecidableEq α] in
theorem sum_eq_iff (l : List α) (f g : α → Nat) (h : ∀ a, f a ≤ g a) :
    (l.map g).sum = (l.map f).sum ↔ ∀ a ∈ l, g a = f a := by
  induction l with
  | nil => simp
  | cons a l ih =>
    have h1 := h a
    have h2 : (l.map f).sum ≤ (l.map g).sum := List.sum_le_sum fun b _ => h b
    rw [List.map_cons, List.map_cons, List.sum_cons, List.sum_cons, List.forall_mem_cons, ← ih]
    omega

/-- C111: exactly as many if and only if no neutron leaves a mark in two readouts. -/
theorem c111_once_iff (minSize : Nat) (ps : List (List Hit × List α)) :
    marks minSize ps = ((allNeutrons ps).countP fun a => ps.any (LeavesMark minSize a)) ↔
      ∀ a, ps.countP (LeavesMark minSize a) ≤ 1 := by
  have hp : ∀ a, (ps.any (LeavesMark minSize a) = true) ↔ 0 < ps.countP (LeavesMark minSize a) := by
    intro a
    rw [List.any_eq_true, List.countP_pos_iff]
  rw [countP_sum, marks, sum_eq_iff]
  · constructor
    · intro h a
      by_cases ha : a ∈ allNeutrons ps
      · rw [h a ha]
        split_ifs <;> omega
      · have : ps.countP (LeavesMark minSize a) = 0 := by
          rw [List.countP_eq_zero]
          intro p hp' hm
          exact ha (subset_allNeutrons hp' (mark_mem hm))
        omega
    · intro h a _
      have h1 := h a
      have h2 := hp a
      split_ifs with h3
      · have := h2.mp h3
        omega
      · by_contra hne
        exact h3 (h2.mpr (by omega))
  · intro a
    split_ifs with h3
    · exact (hp a).mp h3
    · omega

/-- A neutron over the border of two readouts, and another one in the second. -/
def exSplit : List Readout :=
  [⟨0, [.clock 1000, .trigger 1100, .pixel 1200 10 20 5 3, .pixel 1201 10 21 5 3]⟩,
   ⟨0, [.pixel 1202 10 22 5 3, .pixel 1203 90 90 5 3]⟩]

/-- The hypotheses of `c111_events` are met; the two neutrons leave three marks. -/
example : exSplit ≠ [] ∧ (∀ r ∈ exSplit, r.Ok) ∧ (∀ r ∈ exSplit, ∀ s ∈ r.signals, SignalOk s) ∧
    TimelyFile .gdc ⟨0, 0⟩ (keptReadouts 100 0 exSplit) ∧
    (∀ p ∈ (trueReadouts true ⟨0, 0⟩ (keptReadouts 100 0 exSplit)).zip [["A", "A"], ["A", "B"]], Resolved 75 5 p.1 (renumber p.2)) ∧
    marks 1 ((trueReadouts true ⟨0, 0⟩ (keptReadouts 100 0 exSplit)).zip [["A", "A"], ["A", "B"]]) = 3 := by
  have hk : keptReadouts 100 0 exSplit = exSplit := by
    simp [keptReadouts, exSplit, keepSignals, Signal.packets, Readout.packets]
  rw [hk]
  refine ⟨by decide, ?_, ?_, ?_, ?_, by decide +kernel⟩
  · simp only [exSplit, List.mem_cons, List.not_mem_nil, or_false]
    rintro r (rfl | rfl)
    · exact ⟨by decide, by decide, by simp [Signal.Disguised]⟩
    · exact ⟨by decide, by decide, by simp [Signal.Disguised]⟩
  · simp [exSplit, SignalOk, PixelOk]
  · norm_num [TimelyFile, exSplit, AllTimelyG, Signal.TimelyG, Past.after, PixelOk]
  · have h : ∀ p ∈ (trueReadouts true ⟨0, 0⟩ exSplit).zip [["A", "A"], ["A", "B"]],
        (renumber p.2).length = p.1.length ∧ Numbered (renumber p.2) ∧ Coherent 75 5 7 p.1 (renumber p.2) ∧
          NeutronsApart 75 (5 + 1 / 2 ^ 32) p.1 (renumber p.2) := by
      decide +kernel
    exact fun p hp => resolved_of (h p hp)

end Verif.Props
