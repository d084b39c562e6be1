import Verif.Model.Raw2Hits
import Verif.Props.AnyFile
import Verif.Props.SelfCheck
import Verif.Props.DetectorMmap

/-!
# C107: the threads of benchmark_raw2hits count the same hits
-/

namespace Verif.Props

open Verif Verif.Spec

/-! ## The loop over the batches -/

/-- What holds during the loop: a batch is as at the start until a body has done it, and then it is done. -/
structure ExtractInv (buf : Bytes) (init : List Batch) (s : ExtractState) : Prop where
  len : s.batches.length = init.length
  nodup : s.todo.flatten.Nodup
  range : ∀ i ∈ s.todo.flatten, i < init.length
  waiting : ∀ i ∈ s.todo.flatten, s.batches[i]? = init[i]?
  finished : ∀ i, i ∉ s.todo.flatten → ∀ b0 b, init[i]? = some b0 → s.batches[i]? = some b → extractHits .gdc buf b0 = .ok b

theorem todo_split {todo : List (List Nat)} {j i : Nat} {rest : List Nat} (h : todo[j]? = some (i :: rest)) :
    ∃ l r, todo = l ++ (i :: rest) :: r ∧ todo.set j rest = l ++ rest :: r := by
  obtain ⟨hj, he⟩ := List.getElem?_eq_some_iff.mp h
  refine ⟨todo.take j, todo.drop (j + 1), ?_, ?_⟩
  · rw [← he, List.getElem_cons_drop, List.take_append_drop]
  · rw [List.set_eq_take_append_cons_drop, if_pos hj]

theorem extractInv_step {buf : Bytes} {init : List Batch} {s s' : ExtractState} (inv : ExtractInv buf init s)
    (h : ExtractStep buf s s') : ExtractInv buf init s' := by
  obtain ⟨j, i, rest, b, b', h1, h2, h3, rfl⟩ := h
  obtain ⟨l, r, e1, e2⟩ := todo_split h1
  have hf : s.todo.flatten = l.flatten ++ i :: (rest ++ r.flatten) := by rw [e1]; simp
  have hf' : (s.todo.set j rest).flatten = l.flatten ++ (rest ++ r.flatten) := by rw [e2]; simp
  have hnd := inv.nodup
  rw [hf, List.nodup_middle, List.nodup_cons] at hnd
  have hmem : ∀ k, k ∈ s.todo.flatten ↔ k = i ∨ k ∈ (s.todo.set j rest).flatten := by
    intro k
    rw [hf, hf']
    simp only [List.mem_append, List.mem_cons]
    tauto
  have hi : i ∈ s.todo.flatten := (hmem i).mpr (Or.inl rfl)
  refine ⟨?_, ?_, ?_, ?_, ?_⟩
  · rw [List.length_set]; exact inv.len
  · show (s.todo.set j rest).flatten.Nodup
    rw [hf']; exact hnd.2
  · exact fun k hk => inv.range k ((hmem k).mpr (Or.inr hk))
  · intro k hk
    have hk' : k ∈ (s.todo.set j rest).flatten := hk
    rw [hf'] at hk'
    have hik : i ≠ k := by rintro rfl; exact hnd.1 hk'
    show (s.batches.set i b')[k]? = _
    rw [List.getElem?_set_ne hik]
    exact inv.waiting k ((hmem k).mpr (Or.inr hk))
  · intro k hk b0 bk g0 gk
    by_cases he : i = k
    · subst he
      have hlt := inv.range i hi
      rw [← inv.len] at hlt
      rw [List.getElem?_set_self hlt] at gk
      injection gk with gk
      rw [← inv.waiting i hi, h2] at g0
      injection g0 with g0
      rw [← g0, ← gk]
      exact h3
    · rw [List.getElem?_set_ne he] at gk
      exact inv.finished k (fun h => ((hmem k).mp h).elim (fun e => he e.symm) hk) b0 bk g0 gk

theorem extractInv_start (buf : Bytes) (init : List Batch) (ranges : List (List Nat)) (hp : ranges.flatten.Perm (List.range init.length)) :
    ExtractInv buf init ⟨init, ranges⟩ := by
  refine ⟨rfl, hp.nodup_iff.mpr List.nodup_range, fun i hi => by simpa using hp.mem_iff.mp hi, fun _ _ => rfl, ?_⟩
  intro i hi b0 b g0 _
  obtain ⟨hlt, -⟩ := List.getElem?_eq_some_iff.mp g0
  exact absurd (hp.mem_iff.mpr (List.mem_range.mpr hlt)) hi

theorem extractInv_reach {buf : Bytes} {init : List Batch} {s s' : ExtractState} (inv : ExtractInv buf init s)
    (h : ExtractReach buf s s') : ExtractInv buf init s' := by
  induction h with
  | refl => exact inv
  | step _ hs ih => exact extractInv_step ih hs

theorem extractAll_forall {buf : Bytes} {bs es : List Batch} (h : extractAll .gdc buf bs = .ok es) :
    List.Forall₂ (fun b e => extractHits .gdc buf b = .ok e) bs es := by
  induction bs generalizing es with
  | nil => simp only [extractAll] at h; injection h with h; subst h; exact .nil
  | cons b bs ih =>
    simp only [extractAll, bind, Res.bind] at h
    cases h1 : extractHits .gdc buf b with
    | ub u => rw [h1] at h; cases h
    | throws m => rw [h1] at h; cases h
    | ok b' =>
      rw [h1] at h
      cases h2 : extractAll .gdc buf bs with
      | ub u => rw [h2] at h; cases h
      | throws m => rw [h2] at h; cases h
      | ok bs' =>
        rw [h2] at h
        simp only at h
        injection h with h
        subst h
        exact .cons h1 (ih h2)

/-- The batches after the loop are those of the single thread, whatever the schedule. -/
theorem c107_batches (buf : Bytes) (bs es : List Batch) (he : extractAll .gdc buf bs = .ok es) (ranges : List (List Nat))
    (hp : ranges.flatten.Perm (List.range bs.length)) (s : ExtractState) (hr : ExtractReach buf ⟨bs, ranges⟩ s) (hd : s.done) :
    s.batches = es := by
  have inv := extractInv_reach (extractInv_start buf bs ranges hp) hr
  have hfa := extractAll_forall he
  have hl := hfa.length_eq
  have hno : s.todo.flatten = [] := List.flatten_eq_nil_iff.mpr hd
  apply List.ext_getElem (by rw [inv.len, hl])
  intro i h1 h2
  have e1 := inv.finished i (by rw [hno]; simp) _ _ (List.getElem?_eq_getElem (by omega)) (List.getElem?_eq_getElem h1)
  have e2 := List.Forall₂.get hfa (i := i) (by omega) h2
  simp only [List.get_eq_getElem] at e2
  rw [e1] at e2
  injection e2

/-! ## Every file -/

theorem extract_any (buf : Bytes) (hno : ¬ Overrun buf) (pre ws : List U64) (hbuf : wordsOf buf = pre ++ ws) :
    ∃ es, extractAll .gdc buf (scan ws (8 * pre.length)) = .ok es ∧ es.map Batch.hits = seenHits false (announced ws) := by
  induction ws generalizing pre with
  | nil => exact ⟨[], rfl, rfl⟩
  | cons w ws ih =>
    have e1 : wordsOf buf = (pre ++ [w]) ++ ws := by rw [hbuf]; simp
    have e2 : 8 * pre.length + 8 = 8 * (pre ++ [w]).length := by simp; omega
    obtain ⟨es, i1, i2⟩ := ih (pre ++ [w]) e1
    by_cases hs : StartsTPX w
    · have hp : ¬ reachesPartial buf (8 * pre.length) (field w 48 16 / 8) := by
        rw [reaches_iff buf pre w ws hbuf]
        rintro ⟨h1, h2⟩
        exact hno ⟨h1, pre, w, ws, hbuf, hs, h2⟩
      have hpk := packets_any buf pre w ws hbuf (field w 48 16 / 8)
      have hscan : scan (w :: ws) (8 * pre.length) =
          Batch.new (8 * pre.length) (field w 48 16 / 8) (headerChipId w) :: scan ws (8 * (pre ++ [w]).length) := by
        rw [scan, if_pos ((isHeader_iff_starts _).mpr hs), headerPackets_field, headerChip_eq, e2]
      have hann : announced (w :: ws) = ⟨w, ws.take (field w 48 16 / 8)⟩ :: announced ws := by rw [announced, if_pos hs]
      obtain ⟨B, hB⟩ : ∃ B, B = Batch.new (8 * pre.length) (field w 48 16 / 8) (headerChipId w) := ⟨_, rfl⟩
      have f1 : B.index = 8 * pre.length ∧ B.numPackets = field w 48 16 / 8 ∧ B.chip = headerChipId w ∧ B.hits = [] ∧
          B.clock = Clock.zero := by
        rw [hB]; exact ⟨rfl, rfl, rfl, rfl, rfl⟩
      rw [hscan, hann, ← hB, extractAll]
      have hx := extractHits_eq .gdc buf B
      rw [if_neg (by rw [f1.1, f1.2.1]; exact hp), f1.1, f1.2.1, f1.2.2.1, f1.2.2.2.1, f1.2.2.2.2, hpk, List.nil_append] at hx
      simp only [bind, hx, Res.bind, i1]
      refine ⟨_, rfl, ?_⟩
      rw [List.map_cons, i2, ← roundHits_start, ← roundHits_start]
      simp [roundHits]
    · have hscan : scan (w :: ws) (8 * pre.length) = scan ws (8 * (pre ++ [w]).length) := by
        rw [scan, if_neg (fun h => hs ((isHeader_iff_starts _).mp h)), e2]
      have hann : announced (w :: ws) = announced ws := by rw [announced, if_neg hs]
      rw [hscan, hann]
      exact ⟨es, i1, i2⟩

theorem extract_overrun (m : Mode) (buf : Bytes) (bs : List Batch) (b : Batch) (hb : b ∈ bs)
    (hp : reachesPartial buf b.index b.numPackets) : extractAll m buf bs = .ub .oobRead := by
  induction bs with
  | nil => simp at hb
  | cons b0 bs ih =>
    simp only [extractAll, extractHits_eq, bind, Res.bind]
    by_cases h0 : reachesPartial buf b0.index b0.numPackets
    · rw [if_pos h0]
    · rw [if_neg h0]
      simp only
      rcases List.mem_cons.mp hb with rfl | hb
      · exact absurd hp h0
      · rw [ih hb]

/-- C107, the single thread on every file: the hits of every chunk announced, each from time 0; undefined exactly if the file overruns. -/
theorem c107_single (buf : Bytes) :
    (¬ Overrun buf → raw2hits buf = .ok (seenHits false (announced (wordsOf buf))).flatten.length) ∧
    (Overrun buf → raw2hits buf = .ub .oobRead) := by
  constructor
  · intro hno
    obtain ⟨es, h1, h2⟩ := extract_any buf hno [] (wordsOf buf) rfl
    rw [List.length_nil, Nat.mul_zero] at h1
    unfold raw2hits
    rw [findTPX3H_eq]
    simp only [bind, Res.bind, h1]
    rw [← h2, List.flatMap_def]
  · rintro ⟨h8, pre, w, post, hbuf, hs, hlt⟩
    unfold raw2hits
    rw [findTPX3H_eq, hbuf]
    have hm : Batch.new (8 * pre.length) (field w 48 16 / 8) (headerChipId w) ∈ scan (pre ++ w :: post) 0 := by
      rw [scan_append, List.mem_append]
      right
      rw [scan, if_pos ((isHeader_iff_starts _).mpr hs), headerPackets_field, headerChip_eq, Nat.zero_add]
      exact List.mem_cons_self
    have hr := (reaches_iff buf pre w post hbuf (field w 48 16 / 8)).mpr ⟨h8, hlt⟩
    have := extract_overrun .gdc buf _ _ hm hr
    simp only [bind, Res.bind, this]

/-- C107: whatever the file and the schedule, a run that ends normally reports twice the number of hits of the chunks announced. -/
theorem c107_agree (args : List (List Char)) (file : Option Bytes) (counts : List Nat) (h : Raw2HitsRun args file ⟨0, counts⟩) :
    ∃ buf, file = some buf ∧ ¬ Overrun buf ∧
      counts = [(seenHits false (announced (wordsOf buf))).flatten.length, (seenHits false (announced (wordsOf buf))).flatten.length] := by
  generalize he : (⟨0, counts⟩ : Raw2HitsEnd) = e at h
  cases h with
  | usage => simp at he
  | noFile => simp at he
  | counts buf n bs ranges s h1 h2 h3 h4 h5 h6 h7 =>
    injection he with _ he
    have hno : ¬ Overrun buf := fun ho => by rw [(c107_single buf).2 ho] at h3; cases h3
    refine ⟨buf, h2, hno, ?_⟩
    have e := (c107_single buf).1 hno
    rw [e] at h3
    injection h3 with h3
    obtain ⟨es, k1, k2⟩ := extract_any buf hno [] (wordsOf buf) rfl
    rw [List.length_nil, Nat.mul_zero] at k1
    rw [findTPX3H_eq] at h4
    injection h4 with h4
    rw [h4] at k1
    rw [he, c107_batches buf bs es k1 ranges h5 s h6 h7, ← h3, ← k2, List.flatMap_def]

/-- Steps that are left. -/
def stepsLeft (s : ExtractState) : Nat := s.todo.flatten.length

/-- C107: every step takes one batch off the work, so that the loop ends. -/
theorem c107_terminates (buf : Bytes) (s s' : ExtractState) (h : ExtractStep buf s s') : stepsLeft s' + 1 = stepsLeft s := by
  obtain ⟨j, i, rest, b, b', h1, -, -, rfl⟩ := h
  obtain ⟨l, r, e1, e2⟩ := todo_split h1
  unfold stepsLeft
  simp only
  rw [e2, e1]
  simp only [List.flatten_append, List.flatten_cons, List.length_append, List.length_cons]
  omega

/-- C107: while there is work and the file does not overrun, some body can go on. -/
theorem c107_progress (buf : Bytes) (hno : ¬ Overrun buf) (bs : List Batch) (hb : findTPX3H buf = .ok bs) (ranges : List (List Nat))
    (hp : ranges.flatten.Perm (List.range bs.length)) (s : ExtractState) (hr : ExtractReach buf ⟨bs, ranges⟩ s) (hd : ¬ s.done) :
    ∃ s', ExtractStep buf s s' := by
  have inv := extractInv_reach (extractInv_start buf bs ranges hp) hr
  unfold ExtractState.done at hd
  push Not at hd
  obtain ⟨t, ht, hne⟩ := hd
  obtain ⟨i, rest, rfl⟩ := List.exists_cons_of_ne_nil hne
  obtain ⟨j, hj, hje⟩ := List.getElem_of_mem ht
  have hi : i ∈ s.todo.flatten := List.mem_flatten.mpr ⟨_, ht, by simp⟩
  obtain ⟨es, k1, -⟩ := extract_any buf hno [] (wordsOf buf) rfl
  rw [List.length_nil, Nat.mul_zero] at k1
  rw [findTPX3H_eq] at hb
  injection hb with hb
  rw [hb] at k1
  have hlt := inv.range i hi
  have hfa := extractAll_forall k1
  have hx := List.Forall₂.get hfa (i := i) hlt (by rw [← hfa.length_eq]; exact hlt)
  refine ⟨_, j, i, rest, bs[i], es[i]'(by rw [← hfa.length_eq]; exact hlt), ?_, ?_, hx, rfl⟩
  · rw [List.getElem?_eq_getElem hj, hje]
  · rw [inv.waiting i hi, List.getElem?_eq_getElem hlt]

/-- C107: for every file that does not overrun and every partition there is a run that ends. -/
theorem c107_runs (args : List (List Char)) (ha : args ≠ []) (buf : Bytes) (hno : ¬ Overrun buf) :
    ∃ counts, Raw2HitsRun args (some buf) ⟨0, counts⟩ := by
  obtain ⟨bs, hb⟩ : ∃ bs, findTPX3H buf = .ok bs := ⟨_, findTPX3H_eq buf⟩
  have hp : ([List.range bs.length] : List (List Nat)).flatten.Perm (List.range bs.length) := by simp
  have key : ∀ n (s : ExtractState), stepsLeft s = n → ExtractReach buf ⟨bs, [List.range bs.length]⟩ s →
      ∃ s', ExtractReach buf ⟨bs, [List.range bs.length]⟩ s' ∧ s'.done := by
    intro n
    induction n with
    | zero =>
      intro s hl hr
      by_cases hd : s.done
      · exact ⟨s, hr, hd⟩
      · obtain ⟨s', hs'⟩ := c107_progress buf hno bs hb _ hp s hr hd
        have := c107_terminates buf s s' hs'
        omega
    | succ n ih =>
      intro s hl hr
      by_cases hd : s.done
      · exact ⟨s, hr, hd⟩
      · obtain ⟨s', hs'⟩ := c107_progress buf hno bs hb _ hp s hr hd
        have := c107_terminates buf s s' hs'
        exact ih s' (by omega) (.step hr hs')
  obtain ⟨s, h1, h2⟩ := key _ ⟨bs, [List.range bs.length]⟩ rfl (.refl _)
  exact ⟨_, .counts buf _ bs _ s ha rfl ((c107_single buf).1 hno) hb hp h1 h2⟩

/-! ## The detector -/

/-- C107, detector: both numbers are the pixels that a clock and a trigger of the same readout date. -/
theorem c107_detector (rs : List Readout) (hok : ∀ r ∈ rs, r.Ok) (ht : DatedTimely false rs) (args : List (List Char)) (counts : List Nat)
    (h : Raw2HitsRun args (some (detectorFile rs)) ⟨0, counts⟩) :
    counts = [(datedReadouts false rs).flatten.length, (datedReadouts false rs).flatten.length] := by
  obtain ⟨f1, f2, f3, -⟩ := mmap_streams hok ht
  obtain ⟨buf, e, hno, hc⟩ := c107_agree _ _ _ h
  injection e with e
  have k := c89_raw2hits (rs.map Readout.chunk) f1 f2
  have k' := (c107_single buf).1 hno
  rw [← e, detectorFile, k] at k'
  injection k' with k'
  rw [hc, ← e, detectorFile, ← k', f3]

/-- C107, benchmark_raw2events.cpp on a detector: the number of hits and, in memory and in the file, the time of the last pixel. -/
theorem c107_events_partial (solve : List GaussRow → F64 × F64) (micros : Nat) (rs : List Readout) (hok : ∀ r ∈ rs, r.Ok)
    (ht : DatedTimely true rs) (fs : Fs) (hnew : fs verifyName = none) (hne : (datedReadouts true rs).flatten ≠ []) :
    ∃ fs' h, h ∈ (datedReadouts true rs).flatten ∧ (∀ g ∈ (datedReadouts true rs).flatten, g.spidertime.toNat ≤ h.spidertime.toNat) ∧
      raw2events solve micros (detectorFile rs) fs = .ok (⟨(datedReadouts true rs).flatten.length, 0,
        .fin (25 * h.spidertime.toNat), .fin (25 * h.spidertime.toNat)⟩, fs') ∧
      ∀ p, p ≠ verifyName → fs' p = fs p := by
  obtain ⟨f1, f2, f3, f4⟩ := mmap_streams hok ht
  rw [← f3] at f4 hne ⊢
  exact c89_partial solve micros (rs.map Readout.chunk) f1 f2 f4 fs hnew hne

/-- Two readouts that date their own pixels, and a third that does not. -/
def ownReadouts : List Readout :=
  [⟨0, [.clock 20000000, .trigger 20000100, .pixel 20000200 10 20 5 1]⟩,
   ⟨1, [.clock 20000300, .trigger 20000400, .pixel 20000500 10 20 5 1, .pixel 20000900 30 40 5 1]⟩, ⟨2, [.pixel 20000950 30 40 5 1]⟩]

example : (∀ r ∈ ownReadouts, r.Ok) ∧ DatedTimely false ownReadouts ∧ (datedReadouts false ownReadouts).flatten.length = 3 ∧
    ¬ Overrun (detectorFile ownReadouts) := by
  refine ⟨?_, ?_, by decide +kernel, fun h => h.1 (by decide +kernel)⟩
  · intro r hr
    simp only [ownReadouts, List.mem_cons, List.not_mem_nil, or_false] at hr
    rcases hr with rfl | rfl | rfl
    · exact ⟨by decide, by decide +kernel, by decide +kernel⟩
    · exact ⟨by decide, by decide +kernel, by decide +kernel⟩
    · exact ⟨by decide, by decide +kernel, by decide +kernel⟩
  · norm_num [DatedTimely, ownReadouts, AllTimelyG, Signal.TimelyG, Past.after, PixelOk]

/-- The number reported is not that of the pixels that fired. -/
theorem c107_false_detector : (datedReadouts false ownReadouts).flatten.length = 3 ∧
    pixelCount (ownReadouts.flatMap Readout.signals) = 4 := by
  refine ⟨by decide +kernel, by decide⟩

/-! ## The threads of benchmark_raw2events.cpp -/

theorem oneAll_get (c : ProcCtx) (bs es : List EventBatch) (h : oneAll c bs = .ok es) :
    es.length = bs.length ∧ ∀ (i : Nat) (b e : EventBatch), bs[i]? = some b → es[i]? = some e → c.one b = .ok e := by
  induction bs generalizing es with
  | nil =>
    rw [oneAll, Res.ok.injEq] at h
    subst h
    exact ⟨rfl, by simp⟩
  | cons b bs ih =>
    rw [oneAll] at h
    cases h1 : c.one b with
    | throws e => simp [h1, bind, Res.bind] at h
    | ub u => simp [h1, bind, Res.bind] at h
    | ok e =>
      cases h2 : oneAll c bs with
      | throws e => simp [h1, h2, bind, Res.bind] at h
      | ub u => simp [h1, h2, bind, Res.bind] at h
      | ok es' =>
        simp only [h1, h2, bind, Res.bind, Res.ok.injEq] at h
        subst h
        obtain ⟨k1, k2⟩ := ih es' h2
        refine ⟨by simp [k1], fun i => ?_⟩
        cases i with
        | zero =>
          intro b' e' hb he
          simp only [List.getElem?_cons_zero, Option.some.injEq] at hb he
          rw [← hb, ← he, h1]
        | succ i =>
          intro b' e' hb he
          simp only [List.getElem?_cons_succ] at hb he
          exact k2 i b' e' hb he

theorem of_bind {α β : Type} {a : Res α} {f : α → Res β} {b : β} (h : a.bind f = .ok b) : ∃ x, a = .ok x ∧ f x = .ok b := by
  cases a with
  | ok x => exact ⟨x, rfl, h⟩
  | throws e => simp [Res.bind] at h
  | ub u => simp [Res.bind] at h

/-- C107: if the threads of benchmark_raw2events.cpp were used, they would report the hits and the bad hits that one thread reports, in
whatever pieces and whatever order the batches are done. -/
theorem c107_threads (solve : List GaussRow → F64 × F64) (micros : Nat) (buf : Bytes) (fs fs' : Fs) (rep : SelfReport)
    (h : raw2events solve micros buf fs = .ok (rep, fs')) (n bad : Nat) (ht : Raw2EventsThreads solve buf n bad) :
    n = rep.hits ∧ bad = rep.bad := by
  obtain ⟨bs, r, ranges, s, bad, h1, h2, h3, h4, h5, h6⟩ := ht
  unfold raw2events at h
  simp only [bind, Res.bind, h1, h2] at h
  rw [bodyLoop_eq _ _ _ rfl rfl] at h
  cases h7 : oneAll ⟨.gdc, buf, mmapParams, solve⟩ (r.1.map fun b => ⟨b, []⟩) with
  | throws e => simp [h7] at h
  | ub u => simp [h7] at h
  | ok es =>
    simp only [h7] at h
    obtain ⟨k1, k2⟩ := oneAll_get _ _ _ h7
    obtain ⟨l1, l2⟩ := c18_result ⟨.gdc, buf, mmapParams, solve⟩ (r.1.map fun b => ⟨b, []⟩) ranges
      (by unfold IsPartition; rw [List.length_map]; exact h3) s h4 h5
    have he : s.batches = es := by
      apply List.ext_getElem (by omega)
      intro i i1 i2
      have hi : i < (r.1.map fun b => (⟨b, []⟩ : EventBatch)).length := by omega
      have e1 := l2 i _ _ (List.getElem?_eq_getElem hi) (List.getElem?_eq_getElem i1)
      have e2 := k2 i _ _ (List.getElem?_eq_getElem hi) (List.getElem?_eq_getElem i2)
      rw [e1, Res.ok.injEq] at e2
      exact e2
    rw [he] at h6 ⊢
    simp only [h6] at h
    obtain ⟨cols, -, h⟩ := of_bind h
    obtain ⟨fs1, -, h⟩ := of_bind h
    obtain ⟨col, -, h⟩ := of_bind h
    rw [Res.ok.injEq, Prod.mk.injEq] at h
    rw [← h.1]
    exact ⟨rfl, rfl⟩

/-- C107: such a run exists for every file that one thread can process. -/
theorem c107_threads_run (solve : List GaussRow → F64 × F64) (micros : Nat) (buf : Bytes) (fs fs' : Fs) (rep : SelfReport)
    (h : raw2events solve micros buf fs = .ok (rep, fs')) : Raw2EventsThreads solve buf rep.hits rep.bad := by
  unfold raw2events at h
  simp only [bind, Res.bind] at h
  cases h1 : findTPX3H buf with
  | throws e => simp [h1] at h
  | ub u => simp [h1] at h
  | ok bs =>
    cases h2 : locate .gdc buf bs Clock.zero with
    | throws e => simp [h1, h2] at h
    | ub u => simp [h1, h2] at h
    | ok r =>
      simp only [h1, h2] at h
      rw [bodyLoop_eq _ _ _ rfl rfl] at h
      cases h7 : oneAll ⟨.gdc, buf, mmapParams, solve⟩ (r.1.map fun b => ⟨b, []⟩) with
      | throws e => simp [h7] at h
      | ub u => simp [h7] at h
      | ok es =>
        simp only [h7] at h
        obtain ⟨k1, k2⟩ := oneAll_get _ _ _ h7
        have hp : IsPartition [List.range r.1.length] (r.1.map fun b => (⟨b, []⟩ : EventBatch)).length := by
          unfold IsPartition
          simp
        obtain ⟨s, s1, s2⟩ := c18_completes ⟨.gdc, buf, mmapParams, solve⟩ (r.1.map fun b => ⟨b, []⟩) [List.range r.1.length] hp (by
          intro b hb
          obtain ⟨i, hi, rfl⟩ := List.getElem_of_mem hb
          exact ⟨_, k2 i _ _ (List.getElem?_eq_getElem hi) (List.getElem?_eq_getElem (by omega))⟩) _ (.refl _)
        obtain ⟨l1, l2⟩ := c18_result ⟨.gdc, buf, mmapParams, solve⟩ (r.1.map fun b => ⟨b, []⟩) [List.range r.1.length] hp s s1 s2
        have he : s.batches = es := by
          apply List.ext_getElem (by omega)
          intro i i1 i2
          have hi : i < (r.1.map fun b => (⟨b, []⟩ : EventBatch)).length := by omega
          have e1 := l2 i _ _ (List.getElem?_eq_getElem hi) (List.getElem?_eq_getElem i1)
          have e2 := k2 i _ _ (List.getElem?_eq_getElem hi) (List.getElem?_eq_getElem i2)
          rw [e1, Res.ok.injEq] at e2
          exact e2
        cases h6 : checkBadTof (es.flatMap fun e => e.batch.hits) with
        | throws e => simp [h6] at h
        | ub u => simp [h6] at h
        | ok bad =>
          simp only [h6] at h
          obtain ⟨cols, -, h⟩ := of_bind h
          obtain ⟨fs1, -, h⟩ := of_bind h
          obtain ⟨col, -, h⟩ := of_bind h
          rw [Res.ok.injEq, Prod.mk.injEq] at h
          rw [← h.1]
          have := Raw2EventsThreads.counts (solve := solve) (buf := buf) bs r [List.range r.1.length] s bad h1 h2 (by simp) s1 s2 (by rw [he]; exact h6)
          rw [he] at this
          exact this

end Verif.Props
