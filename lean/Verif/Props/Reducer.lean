import Verif.Spec.Reducer
import Verif.Props.Tiff
import Verif.Props.Reader

/-!
# The automatic reducer (C47, C48)
-/

namespace Verif.Props

open Verif Verif.Spec

/-! ## File names -/

theorem takeWhile_append_stop {p : Char → Bool} {a b : List Char} {c : Char} (ha : ∀ x ∈ a, p x = true) (hc : p c = false) :
    (a ++ c :: b).takeWhile p = a := by
  induction a with
  | nil => simp [hc]
  | cons x a ih => simp [ha x (by simp), ih (fun y hy => ha y (by simp [hy]))]

/-- Splitting a name with an extension. -/
theorem pathExt_append (s e : Path) (hs : s ≠ []) (he : ∀ c ∈ e, c ≠ '.') (hd : ¬ (s = ['.'] ∧ e = [])) :
    pathExt (s ++ '.' :: e) = (s, '.' :: e) := by
  have ht : (s ++ '.' :: e).reverse.takeWhile (fun c => !(c == '.')) = e.reverse := by
    rw [List.reverse_append, List.reverse_cons, List.append_assoc]
    simp only [List.cons_append, List.nil_append]
    exact takeWhile_append_stop (by intro x hx; have := he x (by simpa using hx); simpa using this) (by simp)
  have hl : 0 < s.length := List.length_pos_of_ne_nil hs
  unfold pathExt
  simp only [ht, List.length_append, List.length_cons, List.length_reverse]
  have hk : s.length + (e.length + 1) - e.length - 1 = s.length := by omega
  rw [hk, if_neg]
  · simp
  · rintro (h | h | h)
    · omega
    · omega
    · have h1 := congrArg List.length h
      simp at h1
      have h2 : s.length = 1 ∧ e.length = 0 := by omega
      have h3 : e = [] := List.eq_nil_of_length_eq_zero h2.2
      refine hd ⟨?_, h3⟩
      rw [h3] at h
      exact (List.append_inj (h : s ++ ['.'] = ['.'] ++ ['.']) (by simpa using h2.1)).1

/-- Every name is stem and extension. -/
theorem pathExt_join (n : Path) : (pathExt n).1 ++ (pathExt n).2 = n := by
  unfold pathExt
  simp only
  split
  · simp
  · exact List.take_append_drop _ _

/-- A non-empty extension comes after a non-empty stem. -/
theorem pathExt_stem (n : Path) (h : (pathExt n).2 ≠ []) : (pathExt n).1 ≠ [] := by
  unfold pathExt at h ⊢
  simp only at h ⊢
  split at h
  · exact absurd rfl h
  · next hc =>
    rw [if_neg hc]
    simp only [not_or] at hc
    intro e
    rw [List.take_eq_nil_iff] at e
    rcases e with e | e
    · exact hc.2.1 e
    · rw [e] at hc; simp at hc

theorem ext_iff (n e : Path) (he : ∀ c ∈ e, c ≠ '.') (hne : e ≠ []) :
    (pathExt n).2 = '.' :: e ↔ ∃ s, s ≠ [] ∧ n = s ++ '.' :: e := by
  constructor
  · intro h
    refine ⟨(pathExt n).1, pathExt_stem n (by rw [h]; simp), ?_⟩
    rw [← h, pathExt_join]
  · rintro ⟨s, hs, rfl⟩
    rw [pathExt_append s e hs he (fun h => hne h.2)]

/-- The test for raw files is the right one. -/
theorem isRaw_iff (e : DirEntry) : e.isRaw = true ↔ RawFile e := by
  unfold DirEntry.isRaw RawFile RawName
  rw [Bool.and_eq_true, decide_eq_true_iff, ext_iff e.name ['t', 'p', 'x', '3'] (by decide) (by simp)]

/-- The test for the end file is the right one. -/
theorem isNxs_iff (e : DirEntry) : e.isNxs = true ↔ EndFile e := by
  unfold DirEntry.isNxs EndFile DirEntry.stem
  rw [Bool.and_eq_true, Bool.and_eq_true, decide_eq_true_iff, decide_eq_true_iff, and_assoc]
  refine and_congr_right fun _ => ?_
  constructor
  · rintro ⟨h1, h2⟩
    obtain ⟨s, hs, e2⟩ := (ext_iff (pathExt e.name).1 ['n', 'x', 's'] (by decide) (by simp)).1 h2
    refine ⟨s, hs, ?_⟩
    rw [← pathExt_join e.name, h1, e2]
    simp
  · rintro ⟨s, hs, h⟩
    have h1 : pathExt e.name = (s ++ ['.', 'n', 'x', 's'], ['.', 'h', '5']) := by
      rw [h, ← pathExt_append (s ++ ['.', 'n', 'x', 's']) ['h', '5'] (by simp) (by decide) (by simp)]
      simp
    rw [h1]
    refine ⟨rfl, ?_⟩
    simp only
    rw [pathExt_append s ['n', 'x', 's'] hs (by decide) (by simp)]

theorem raw_name {e : DirEntry} (h : e.isRaw = true) : e.name = e.stem ++ ['.', 't', 'p', 'x', '3'] := by
  unfold DirEntry.isRaw at h
  rw [Bool.and_eq_true, decide_eq_true_iff] at h
  unfold DirEntry.stem
  rw [← h.2, pathExt_join]

/-! ## Invariants -/

/-- `processed` holds the stems of the files processed with success. -/
structure RedInv (s : RedState) : Prop where
  mem : ∀ p, p ∈ s.processed ↔ Succeeded s.log (p ++ ['.', 't', 'p', 'x', '3'])
  /-- no event follows a success of the same file -/
  once : s.log.Pairwise fun a b => (∃ n d im, a = .done n d im) → a.name ≠ b.name

theorem succ_append (l : List RedEvent) (e : RedEvent) (n : Path) :
    Succeeded (l ++ [e]) n ↔ Succeeded l n ∨ ∃ d im, e = .done n d im := by
  unfold Succeeded
  constructor
  · rintro ⟨d, im, h⟩
    rcases List.mem_append.1 h with h | h
    · exact .inl ⟨d, im, h⟩
    · exact .inr ⟨d, im, (List.mem_singleton.1 h).symm⟩
  · rintro (⟨d, im, h⟩ | ⟨d, im, rfl⟩)
    · exact ⟨d, im, List.mem_append.2 (.inl h)⟩
    · exact ⟨d, im, by simp⟩

theorem inv_once_append {s : RedState} (h : RedInv s) {e : DirEntry} (hr : e.isRaw = true) (hn : e.stem ∉ s.processed)
    (ev : RedEvent) (hev : ev.name = e.name) :
    (s.log ++ [ev]).Pairwise fun a b => (∃ n d im, a = .done n d im) → a.name ≠ b.name := by
  rw [List.pairwise_append]
  refine ⟨h.once, by simp, ?_⟩
  rintro a ha b hb ⟨n, d, im, rfl⟩ he
  rw [List.mem_singleton] at hb
  subst hb
  apply hn
  rw [h.mem, ← raw_name hr, ← hev, ← he]
  exact ⟨d, im, ha⟩

theorem pollRun_inv {x : RedCtx} {l : List DirEntry} {c : Clock} {s s' : RedState} {b : Bool} (h : PollRun x l c s s' b)
    (hi : RedInv s) : RedInv s' ∧ ∃ evs, s'.log = s.log ++ evs := by
  induction h with
  | nil => exact ⟨hi, [], by simp⟩
  | other _ _ ih => exact ih hi
  | skip _ _ _ ih => exact ih hi
  | exit _ _ _ => exact ⟨hi, [], by simp⟩
  | @done e es c s s' b data im c' d' hr hn hc him hsv _ ih =>
    obtain ⟨i1, evs, i2⟩ := ih (by
      refine ⟨?_, inv_once_append hi hr hn _ rfl⟩
      intro p
      simp only [List.mem_cons]
      rw [succ_append, hi.mem]
      constructor
      · rintro (rfl | h)
        · exact .inr ⟨data, im, by rw [raw_name hr]⟩
        · exact .inl h
      · rintro (h | ⟨d, im', h⟩)
        · exact .inr h
        · injection h with h _ _
          rw [raw_name hr] at h
          exact .inl (List.append_cancel_right h).symm)
    exact ⟨i1, .done e.name data im :: evs, by rw [i2]; simp⟩
  | @failed e es c s s' b data c' hr hn hc _ _ ih =>
    obtain ⟨i1, evs, i2⟩ := ih (by
      refine ⟨?_, inv_once_append hi hr hn _ rfl⟩
      intro p
      simp only
      rw [succ_append, hi.mem]
      constructor
      · exact .inl
      · rintro (h | ⟨d, im', h⟩)
        · exact h
        · cases h)
    exact ⟨i1, .failed e.name :: evs, by rw [i2]; simp⟩

theorem init_inv (d : Dir) : RedInv (RedState.init d) := by
  refine ⟨fun p => ?_, List.Pairwise.nil⟩
  simp [RedState.init, Succeeded]

theorem monRun_inv {x : RedCtx} {rs : List (List DirEntry × List DirEntry)} {s s' : RedState} {st : RedStatus}
    (h : MonRun x rs s s' st) (hi : RedInv s) : RedInv s' ∧ ∃ evs, s'.log = s.log ++ evs := by
  induction h with
  | running => exact ⟨hi, [], by simp⟩
  | stop _ => exact ⟨hi, [], by simp⟩
  | exit _ hp => exact pollRun_inv hp hi
  | round _ hp _ ih =>
    obtain ⟨h1, e1, h2⟩ := pollRun_inv hp hi
    obtain ⟨h3, e2, h4⟩ := ih h1
    exact ⟨h3, e1 ++ e2, by rw [h4, h2]; simp⟩

/-- C47: a file processed with success is never tried again, whatever the listings and failures. -/
theorem c47_once (x : RedCtx) (d : Dir) (rs : List (List DirEntry × List DirEntry)) (s : RedState) (st : RedStatus)
    (h : MonRun x rs (RedState.init d) s st) (i j : Nat) (hij : i < j) (n : Path) (data : Bytes) (im : Stack)
    (ev : RedEvent) (h1 : s.log[i]? = some (.done n data im)) (h2 : s.log[j]? = some ev) : ev.name ≠ n := by
  have hp := (monRun_inv h (init_inv d)).1.once
  rw [List.pairwise_iff_getElem] at hp
  obtain ⟨hi, e1⟩ := List.getElem?_eq_some_iff.1 h1
  obtain ⟨hj, e2⟩ := List.getElem?_eq_some_iff.1 h2
  have := hp i j hi hj hij ⟨n, data, im, e1⟩
  rw [e1, e2] at this
  exact fun e => this e.symm

/-- Every event of a poll concerns a raw file of the listing. -/
theorem pollRun_listed {x : RedCtx} {l : List DirEntry} {c : Clock} {s s' : RedState} {b : Bool} (h : PollRun x l c s s' b) :
    ∃ evs, s'.log = s.log ++ evs ∧ (∀ ev ∈ evs, ∃ e ∈ l, RawFile e ∧ ev.name = e.name ∧
      (∀ n data im, ev = .done n data im → e.content = some data)) ∧
      (b = false → ∀ e ∈ l, RawFile e → e.stem ∈ s.processed ∨ Tried evs e.name) := by
  induction h with
  | nil => exact ⟨[], by simp, by simp, by simp⟩
  | @other e es c s s' b hr _ ih =>
    obtain ⟨evs, h1, h2, h3⟩ := ih
    refine ⟨evs, h1, ?_, ?_⟩
    · intro ev hev; obtain ⟨e', a, b⟩ := h2 ev hev; exact ⟨e', by simp [a], b⟩
    · intro hb e' he' hraw
      rcases List.mem_cons.1 he' with rfl | he'
      · rw [← isRaw_iff, hr] at hraw; exact absurd hraw (by simp)
      · exact h3 hb e' he' hraw
  | @skip e es c s s' b hr hm _ ih =>
    obtain ⟨evs, h1, h2, h3⟩ := ih
    refine ⟨evs, h1, ?_, ?_⟩
    · intro ev hev; obtain ⟨e', a, b⟩ := h2 ev hev; exact ⟨e', by simp [a], b⟩
    · intro hb e' he' hraw
      rcases List.mem_cons.1 he' with rfl | he'
      · exact .inl hm
      · exact h3 hb e' he' hraw
  | exit _ _ _ => exact ⟨[], by simp, by simp, by simp⟩
  | @done e es c s s' b data im c' d' hr hn hc him hsv _ ih =>
    obtain ⟨evs, h1, h2, h3⟩ := ih
    refine ⟨.done e.name data im :: evs, by rw [h1]; simp, ?_, ?_⟩
    · intro ev hev
      rcases List.mem_cons.1 hev with rfl | hev
      · refine ⟨e, by simp, (isRaw_iff e).1 hr, rfl, ?_⟩
        intro n d i h; injection h with _ h _; rw [← h]; exact hc
      · obtain ⟨e', a, b⟩ := h2 ev hev; exact ⟨e', by simp [a], b⟩
    · intro hb e' he' hraw
      have hd : Succeeded (.done e.name data im :: evs) e.name := ⟨data, im, by simp⟩
      rcases List.mem_cons.1 he' with rfl | he'
      · exact .inr (.inl hd)
      · rcases h3 hb e' he' hraw with h | h
        · rcases List.mem_cons.1 h with h | h
          · right; left
            rw [raw_name ((isRaw_iff e').2 hraw), h, ← raw_name hr]
            exact hd
          · exact .inl h
        · right
          rcases h with ⟨d, i, h⟩ | h
          · exact .inl ⟨d, i, by simp [h]⟩
          · exact .inr (by simp [h])
  | @failed e es c s s' b data c' hr hn hc _ _ ih =>
    obtain ⟨evs, h1, h2, h3⟩ := ih
    refine ⟨.failed e.name :: evs, by rw [h1]; simp, ?_, ?_⟩
    · intro ev hev
      rcases List.mem_cons.1 hev with rfl | hev
      · refine ⟨e, by simp, (isRaw_iff e).1 hr, rfl, ?_⟩
        intro n d i h; cases h
      · obtain ⟨e', a, b⟩ := h2 ev hev; exact ⟨e', by simp [a], b⟩
    · intro hb e' he' hraw
      rcases List.mem_cons.1 he' with rfl | he'
      · exact .inr (.inr (by simp))
      · rcases h3 hb e' he' hraw with h | h
        · exact .inl h
        · right
          rcases h with ⟨d, i, h⟩ | h
          · exact .inl ⟨d, i, by simp [h]⟩
          · exact .inr (by simp [h])

/-- C47, retrying: in every round that ends, each listed raw file not yet processed with success is tried (again).
Missing: a round may not end (`c47_false_exit`, `c47_empty_file_undefined`). -/
theorem c47_retry_partial (x : RedCtx) (d : Dir) (rs : List (List DirEntry × List DirEntry)) (s1 s2 : RedState)
    (h : MonRun x rs (RedState.init d) s1 .running) (l : List DirEntry) (hp : PollRun x l Clock.zero s1 s2 false) :
    ∃ evs, s2.log = s1.log ++ evs ∧ ∀ e ∈ l, RawFile e → ¬ Succeeded s1.log e.name → Tried evs e.name := by
  obtain ⟨evs, h1, -, h3⟩ := pollRun_listed hp
  refine ⟨evs, h1, ?_⟩
  intro e he hraw hns
  refine (h3 rfl e he hraw).resolve_left fun hm => hns ?_
  rw [raw_name ((isRaw_iff e).2 hraw), ← (monRun_inv h (init_inv d)).1.mem]
  exact hm

/-- C47: what is tried was listed as a raw file, and the data is what was found in it. -/
theorem c47_only_listed (x : RedCtx) (l : List DirEntry) (c : Clock) (s s' : RedState) (b : Bool) (h : PollRun x l c s s' b) :
    ∃ evs, s'.log = s.log ++ evs ∧ ∀ ev ∈ evs, ∃ e ∈ l, RawFile e ∧ ev.name = e.name ∧
      (∀ n data im, ev = .done n data im → e.content = some data) := by
  obtain ⟨evs, h1, h2, -⟩ := pollRun_listed h
  exact ⟨evs, h1, h2⟩

/-- C47 is false for a file that cannot be opened: the program ends, and neither this nor any later file of the listing
is ever tried. -/
theorem c47_false_exit (x : RedCtx) (d : Dir) (e : DirEntry) (he : RawFile e) (hc : e.content = none)
    (l1 rest : List DirEntry) (h1 : ∀ a ∈ l1, ¬ EndFile a) :
    MonRun x [(l1, e :: rest)] (RedState.init d) (RedState.init d) .exited ∧
    ∀ l c s s' b, PollRun x (e :: l) c s s' b → e.stem ∉ s.processed → b = true ∧ s' = s := by
  constructor
  · refine .exit ?_ (.exit ((isRaw_iff e).2 he) (by simp [RedState.init]) hc)
    rw [List.any_eq_false]
    intro a ha hn
    exact h1 a ha ((isNxs_iff a).1 hn)
  · intro l c s s' b hp hn
    cases hp with
    | other hr _ => rw [(isRaw_iff e).2 he] at hr; exact absurd hr (by simp)
    | skip _ hm _ => exact absurd hm hn
    | exit _ _ _ => exact ⟨rfl, rfl⟩
    | done _ _ h _ _ _ => rw [hc] at h; cases h
    | failed _ _ h _ _ => rw [hc] at h; cases h

example : RawFile ⟨"run1.tpx3".toList, true, none⟩ := ⟨rfl, "run1".toList, by decide, by decide⟩

theorem saveRuns_append {out base : Path} {edges : List F64} {a b : List Stack} {d0 d1 d2 : Dir}
    (h1 : SaveRuns out base edges a d0 d1) (h2 : SaveRuns out base edges b d1 d2) : SaveRuns out base edges (a ++ b) d0 d2 := by
  induction h1 with
  | nil => exact h2
  | cons h _ ih => exact .cons h (ih h2)

theorem successes_append (a b : List RedEvent) : successes (a ++ b) = successes a ++ successes b := by
  induction a with
  | nil => rfl
  | cons e a ih => cases e <;> simp [successes, ih]

/-- Output: saves of the successes of the record since a directory `d`. -/
theorem pollRun_saves {x : RedCtx} {l : List DirEntry} {c : Clock} {s s' : RedState} {b : Bool} (h : PollRun x l c s s' b)
    (d : Dir) (h0 : SaveRuns x.out x.base x.edges (successes s.log) d s.dir) :
    SaveRuns x.out x.base x.edges (successes s'.log) d s'.dir := by
  induction h with
  | nil => exact h0
  | other _ _ ih => exact ih h0
  | skip _ _ _ ih => exact ih h0
  | exit _ _ _ => exact h0
  | done _ _ _ _ hs _ ih =>
    apply ih
    simp only
    rw [successes_append]
    exact saveRuns_append h0 (.cons hs (.nil _))
  | failed _ _ _ _ _ ih =>
    apply ih
    simp only
    rw [successes_append]
    simpa [successes] using h0

/-- C47: after every history the output is what saving the images of the successful files, each once, produces. -/
theorem c47_output (x : RedCtx) (d : Dir) (rs : List (List DirEntry × List DirEntry)) (s : RedState) (st : RedStatus)
    (h : MonRun x rs (RedState.init d) s st) : SaveRuns x.out x.base x.edges (successes s.log) d s.dir := by
  have key : ∀ s0, MonRun x rs s0 s st → SaveRuns x.out x.base x.edges (successes s0.log) d s0.dir →
      SaveRuns x.out x.base x.edges (successes s.log) d s.dir := by
    intro s0 hm
    clear h
    induction hm with
    | running => exact id
    | stop _ => exact id
    | exit _ hp => exact pollRun_saves hp d
    | round _ hp _ ih => exact fun h0 => ih (pollRun_saves hp d h0)
  exact key _ h (.nil d)

/-- Shape of the images of a file that could be saved. -/
theorem images_shaped {x : RedCtx} {n : Nat} {data : Bytes} {c c' : Clock} {im : Stack} {d d' : Dir} {k : Nat}
    (he : x.edges.length = n + 1) (hn : 0 < n) (hd : dimOf x.sr = .ok k)
    (h : x.images data c = .ok (im, c')) (hs : SaveRun x.out x.base x.edges im d d') : Shaped n k im := by
  unfold RedCtx.images at h
  simp only [bind] at h
  cases hc : chunkEvents ⟨.gdc, x.params, x.solve⟩ data c with
  | throws m => rw [hc] at h; simp [Res.bind] at h
  | ub u => rw [hc] at h; simp [Res.bind] at h
  | ok r =>
    rw [hc] at h
    simp only [Res.bind] at h
    cases hi : createImages x.sr x.edges x.tofMode r.1 with
    | throws m => rw [hi] at h; simp at h
    | ub u => rw [hi] at h; simp at h
    | ok im' =>
      rw [hi] at h
      simp only [Res.ok.injEq, Prod.mk.injEq] at h
      obtain ⟨rfl, -⟩ := h
      by_cases hb : r.1 = []
      · exfalso
        rw [hb] at hi
        unfold createImages at hi
        rw [if_neg (by intro h; rw [h] at he; simp at he), if_neg (by omega), if_pos rfl] at hi
        injection hi with hi
        subst hi
        refine (c39_empty_images x.out x.base x.edges _ d d' 0 ?_).1 hs
        rw [List.getElem?_replicate, if_pos (by omega)]
      · unfold createImages at hi
        rw [if_neg (by intro h; rw [h] at he; simp at he), if_neg (by omega), if_neg hb, hd] at hi
        simp only [bind, Res.bind] at hi
        cases hz : zeroStack (x.edges.length - 1) (k : Int) with
        | throws m => rw [hz] at hi; simp at hi
        | ub u => rw [hz] at hi; simp at hi
        | ok im0 =>
          rw [hz] at hi
          simp only at hi
          have h0 := zeroStack_shaped _ _ _ hz
          rw [he, Nat.add_sub_cancel] at h0
          have hne : x.edges ≠ [] := by intro h; rw [h] at he; simp at he
          clear hz hb hc hs
          generalize r.1 = bs at hi
          induction bs generalizing im0 with
          | nil => rw [createLoop] at hi; injection hi with hi; subst hi; exact h0
          | cons b bs ih =>
            rw [createLoop] at hi
            simp only [bind] at hi
            cases hes : entriesOf x.tofMode b with
            | throws m => rw [hes] at hi; simp [Res.bind] at hi
            | ub u => rw [hes] at hi; simp [Res.bind] at hi
            | ok es =>
              rw [hes] at hi
              simp only [Res.bind] at hi
              cases ha : addEntries x.sr x.edges k im0 es with
              | throws m => rw [ha] at hi; simp at hi
              | ub u => rw [ha] at hi; simp at hi
              | ok im1 =>
                rw [ha] at hi
                exact ih im1 (addEntries_shaped h0 x.sr x.edges hne es im1 ha) hi

/-- The images on record are those of their data, for some timestamps, and have one shape. -/
theorem pollRun_images {x : RedCtx} {n k : Nat} (he : x.edges.length = n + 1) (hn : 0 < n) (hd : dimOf x.sr = .ok k)
    {l : List DirEntry} {c : Clock} {s s' : RedState} {b : Bool} (h : PollRun x l c s s' b)
    (h0 : ∀ nm data im, RedEvent.done nm data im ∈ s.log → Shaped n k im ∧ ∃ c c', x.images data c = .ok (im, c')) :
    ∀ nm data im, RedEvent.done nm data im ∈ s'.log → Shaped n k im ∧ ∃ c c', x.images data c = .ok (im, c') := by
  induction h with
  | nil => exact h0
  | other _ _ ih => exact ih h0
  | skip _ _ _ ih => exact ih h0
  | exit _ _ _ => exact h0
  | @done e es c s s' b data im c' d' _ _ _ him hs _ ih =>
    apply ih
    intro nm dt i hm
    rcases List.mem_append.1 hm with hm | hm
    · exact h0 nm dt i hm
    · rw [List.mem_singleton] at hm
      injection hm with _ h2 h3
      subst h2; subst h3
      exact ⟨images_shaped he hn hd him hs, _, _, him⟩
  | failed _ _ _ _ _ ih =>
    apply ih
    intro nm dt i hm
    rcases List.mem_append.1 hm with hm | hm
    · exact h0 nm dt i hm
    · rw [List.mem_singleton] at hm; cases hm

theorem mem_successes {log : List RedEvent} {im : Stack} (h : im ∈ successes log) : ∃ n data, RedEvent.done n data im ∈ log := by
  induction log with
  | nil => simp [successes] at h
  | cons e log ih =>
    cases e with
    | done n data i =>
      simp only [successes, List.mem_cons] at h
      rcases h with rfl | h
      · exact ⟨n, data, by simp⟩
      · obtain ⟨a, b, g⟩ := ih h; exact ⟨a, b, by simp [g]⟩
    | failed n => obtain ⟨a, b, g⟩ := ih h; exact ⟨a, b, by simp [g]⟩

/-- C47: over every history, starting with a directory without image files, each pixel of each image file holds the sum,
modulo 2^32, over the files processed with success, each counted once. -/
theorem c47_counts (x : RedCtx) (n k : Nat) (he : x.edges.length = n + 1) (hn : 0 < n) (hd : dimOf x.sr = .ok k) (hk : 0 < k)
    (d : Dir) (h0 : ∀ i t, d (tiffName x.out x.base i) ≠ some (.tiff t))
    (rs : List (List DirEntry × List DirEntry)) (s : RedState) (st : RedStatus)
    (h : MonRun x rs (RedState.init d) s st) (hne : successes s.log ≠ []) (i : Nat) (hi : i < n) :
    ∃ t, s.dir (tiffName x.out x.base i) = some (.tiff t) ∧ t.width = k ∧ t.height = k ∧
      ∀ y z, y < k → z < k →
        (t.rows[y]?.bind fun r => r[z]?).map BitVec.toNat = some (stackSum (successes s.log) i y z % 2 ^ 32) := by
  have key : ∀ s0, MonRun x rs s0 s st →
      (∀ nm data im, RedEvent.done nm data im ∈ s0.log → Shaped n k im ∧ ∃ c c', x.images data c = .ok (im, c')) →
      ∀ nm data im, RedEvent.done nm data im ∈ s.log → Shaped n k im ∧ ∃ c c', x.images data c = .ok (im, c') := by
    intro s0 hm
    clear h hne
    induction hm with
    | running => exact id
    | stop _ => exact id
    | exit _ hp => exact pollRun_images he hn hd hp
    | round _ hp _ ih => exact fun h0 => ih (pollRun_images he hn hd hp h0)
  have hall := key _ h (by simp [RedState.init])
  refine c39_accumulates hk x.out x.base x.edges _ hne ?_ d s.dir h0 (c47_output x d rs s st h) i hi
  intro im him
  obtain ⟨nm, data, hm⟩ := mem_successes him
  exact (hall nm data im hm).1

/-- C47: a file without packet headers, such as one just created, is neither processed nor rejected: saving its
images reads outside them. -/
theorem c47_empty_file_undefined (x : RedCtx) (he : 2 ≤ x.edges.length) (ws : List U64) (hw : ∀ w ∈ ws, ¬ StartsTPX w)
    (c : Clock) : ∃ im, x.images (ws.flatMap bytesOf) c = .ok (im, c) ∧
      (∀ d d', ¬ SaveRun x.out x.base x.edges im d d') ∧
      ∀ d, ∃ s, SaveStep x.out x.base im (SaveState.init d) s ∧ s.phase 0 = .failed .oobRead := by
  have hc := chunk_no_header ⟨.gdc, x.params, x.solve⟩ ws c hw
  have hget : (List.replicate (x.edges.length - 1) ([] : List (List U32)))[0]? = some [] := by
    rw [List.getElem?_replicate, if_pos (by omega)]
  refine ⟨List.replicate (x.edges.length - 1) [], ?_, ?_, ?_⟩
  · unfold RedCtx.images
    cases hr : chunkEvents ⟨.gdc, x.params, x.solve⟩ (ws.flatMap bytesOf) c with
    | throws m => rw [hr] at hc; simp [chunkOutput, Res.bind] at hc
    | ub u => rw [hr] at hc; simp [chunkOutput, Res.bind] at hc
    | ok r =>
      rw [hr] at hc
      simp only [chunkOutput, Res.bind, outputOf, Res.ok.injEq, Prod.mk.injEq, List.map_eq_nil_iff] at hc
      simp only [bind, Res.bind]
      rw [hc.1]
      unfold createImages
      rw [if_neg (by intro h; rw [h] at he; simp at he), if_neg (by omega), if_pos rfl]
      simp only [hc.2]
  · intro d d'
    exact (c39_empty_images x.out x.base x.edges _ d d' 0 hget).1
  · intro d
    exact ⟨_, (c39_empty_images x.out x.base x.edges _ d d 0 hget).2, by simp⟩

/-- A file with one empty batch gives images of zeros. -/
theorem images_header (x : RedCtx) (hsr : x.sr = .fin 1) (n : Nat) (he : x.edges.length = n + 1) (hn : 0 < n) (c : Clock) :
    ∃ im, x.images (bytesOf 0x0000000033585054#64) c = .ok (im, c) ∧ Shaped n 517 im := by
  have hc := chunk_header_last ⟨.gdc, x.params, x.solve⟩ [] 0x0000000033585054#64 c (by simp) (by decide)
  have e0 : ([] ++ [0x0000000033585054#64]).flatMap bytesOf = bytesOf 0x0000000033585054#64 := by simp
  rw [e0] at hc
  have hz : zeroStack (x.edges.length - 1) ((517 : Nat) : Int) = .ok (List.replicate n (List.replicate 517 (List.replicate 517 0#32))) := by
    unfold zeroStack
    rw [if_neg (by omega), if_neg (by omega), he]
    rfl
  generalize List.replicate n (List.replicate 517 (List.replicate 517 0#32)) = S at hz
  refine ⟨S, ?_, by have := zeroStack_shaped _ _ _ hz; rwa [he, Nat.add_sub_cancel] at this⟩
  unfold RedCtx.images
  cases hr : chunkEvents ⟨.gdc, x.params, x.solve⟩ (bytesOf 0x0000000033585054#64) c with
  | throws m => rw [hr] at hc; simp [chunkOutput, Res.bind] at hc
  | ub u => rw [hr] at hc; simp [chunkOutput, Res.bind] at hc
  | ok r =>
    obtain ⟨bs, c'⟩ := r
    rw [hr] at hc
    simp only [chunkOutput, Res.bind, outputOf, Res.ok.injEq, Prod.mk.injEq] at hc
    obtain ⟨h1, rfl⟩ := hc
    match bs, h1 with
    | [b], h1 =>
      simp only [List.map_cons, List.map_nil, List.cons.injEq, Prod.mk.injEq, and_true] at h1
      simp only [bind, Res.bind]
      unfold createImages
      rw [if_neg (by intro h; rw [h] at he; simp at he), if_neg (by omega), if_neg (by simp), hsr, dimOf_one]
      simp only [bind, Res.bind]
      have h517 : (517 : Int) = ((517 : Nat) : Int) := rfl
      rw [h517, hz]
      have hen : entriesOf x.tofMode b = .ok [] := by
        unfold entriesOf
        rw [h1.1, h1.2]
        split <;> rfl
      simp only [createLoop, hen, bind, Res.bind, addEntries]

/-- A run with one successful file, for the examples below. -/
theorem exampleRun (x : RedCtx) (hsr : x.sr = .fin 1) (n : Nat) (he : x.edges.length = n + 1) (hn : 0 < n) (d : Dir) :
    ∃ im s, MonRun x [([], [⟨"a.tpx3".toList, true, some (bytesOf 0x0000000033585054#64)⟩])] (RedState.init d) s .running ∧
      s.log = [.done "a.tpx3".toList (bytesOf 0x0000000033585054#64) im] := by
  obtain ⟨im, h1, h2⟩ := images_header x hsr n he hn Clock.zero
  obtain ⟨d1, h3⟩ := saveRun_exists (by omega) x.out x.base x.edges im h2 he d
  exact ⟨im, _, .round rfl (.done (by decide) (by simp [RedState.init]) rfl h1 h3 .nil) .running, rfl⟩

example : ∃ x : RedCtx, x.sr = .fin 1 ∧ x.edges.length = 1 + 1 ∧ dimOf x.sr = .ok ((517 : Nat) : Int) :=
  ⟨⟨⟨.fin 5, 1, 75⟩, fun _ => (.fin 0, .fin 0), .fin 1, [.fin 0, .fin 1], "neutron", [], []⟩, rfl, rfl, dimOf_one⟩

/-! ## C48 -/

/-- Every raw file listed in a completed round has been tried. -/
theorem monRun_tried {x : RedCtx} {rs : List (List DirEntry × List DirEntry)} {s s' : RedState} {st : RedStatus}
    (h : MonRun x rs s s' st) (hi : RedInv s) (k : Nat) (l1 l2 : List DirEntry) (hk : rs[k]? = some (l1, l2))
    (hlast : st = .running ∨ k + 1 < rs.length) (e : DirEntry) (he : e ∈ l2) (hr : RawFile e) : Tried s'.log e.name := by
  induction h generalizing k with
  | running => simp at hk
  | stop _ =>
    rcases hlast with h | h
    · cases h
    · simp at h
  | exit _ _ =>
    rcases hlast with h | h
    · cases h
    · simp at h
  | @round a1 a2 rest s s' s'' st _ hp hm ih =>
    obtain ⟨i1, -⟩ := pollRun_inv hp hi
    obtain ⟨-, evs', i2⟩ := monRun_inv hm i1
    have mono : Tried s'.log e.name → Tried s''.log e.name := by
      rw [i2]
      rintro (⟨d, i, h⟩ | h)
      · exact .inl ⟨d, i, by simp [h]⟩
      · exact .inr (by simp [h])
    cases k with
    | zero =>
      simp only [List.getElem?_cons_zero, Option.some.injEq, Prod.mk.injEq] at hk
      obtain ⟨rfl, rfl⟩ := hk
      obtain ⟨evs, h1, -, h3⟩ := pollRun_listed hp
      apply mono
      rcases h3 rfl e he hr with h | h
      · left
        rw [hi.mem, ← raw_name ((isRaw_iff e).2 hr)] at h
        obtain ⟨d, i, h⟩ := h
        exact ⟨d, i, by rw [h1]; simp [h]⟩
      · rw [h1]
        rcases h with ⟨d, i, h⟩ | h
        · exact .inl ⟨d, i, by simp [h]⟩
        · exact .inr (by simp [h])
    | succ k =>
      refine ih i1 k (by simpa using hk) ?_
      rcases hlast with h | h
      · exact .inl h
      · right; simpa using h

/-- C48: when monitoring stops, every raw file listed by the processing of some earlier round has been tried, and
processed with success unless a try failed.
Missing: files that come between that listing and the end (`c48_false_late`), and data added to a file that has already
been processed (`c48_false_growing`). -/
theorem c48_listed_partial (x : RedCtx) (d : Dir) (rs : List (List DirEntry × List DirEntry)) (s : RedState)
    (h : MonRun x rs (RedState.init d) s .stopped) (k : Nat) (l1 l2 : List DirEntry) (hk : rs[k]? = some (l1, l2))
    (hlast : k + 1 < rs.length) (e : DirEntry) (he : e ∈ l2) (hr : RawFile e) :
    Tried s.log e.name ∧ (RedEvent.failed e.name ∉ s.log → Succeeded s.log e.name) := by
  have ht := monRun_tried h (init_inv d) k l1 l2 hk (.inr hlast) e he hr
  exact ⟨ht, fun hf => ht.resolve_right hf⟩

/-- C48: if the directory did not get further raw files since the last round and no try failed, none is missed. -/
theorem c48_quiet_partial (x : RedCtx) (d : Dir) (rs : List (List DirEntry × List DirEntry)) (l1 l2 now now2 : List DirEntry)
    (s : RedState) (h : MonRun x (rs ++ [(l1, l2), (now, now2)]) (RedState.init d) s .stopped)
    (hq : ∀ e ∈ now, RawFile e → ∃ e' ∈ l2, RawFile e' ∧ e'.name = e.name) (hf : ∀ n, RedEvent.failed n ∉ s.log) :
    ∀ e ∈ now, RawFile e → Succeeded s.log e.name := by
  intro e he hr
  obtain ⟨e', he', hr', hn⟩ := hq e he hr
  rw [← hn]
  refine (c48_listed_partial x d _ s h rs.length l1 l2 ?_ (by simp) e' he' hr').2 (hf _)
  rw [List.getElem?_append_right (by omega)]
  simp

/-- C48 is false: a raw file that comes together with the `.nxs.h5` file after a round is never tried, in every
configuration. -/
theorem c48_false_late (x : RedCtx) (d : Dir) (e f : DirEntry) (hf : EndFile f) :
    ∃ s, MonRun x [([], []), ([e, f], [e, f])] (RedState.init d) s .stopped ∧ ¬ Tried s.log e.name := by
  refine ⟨RedState.init d, .round rfl .nil (.stop ?_), ?_⟩
  · have := (isNxs_iff f).2 hf
    simp [this]
  · rintro (⟨_, _, h⟩ | h) <;> simp [RedState.init] at h

/-- C48 is false also when everything is there from the start: nothing is processed. -/
theorem c48_false_complete (x : RedCtx) (d : Dir) (l : List DirEntry) (h : ∃ f ∈ l, EndFile f)
    (rs : List (List DirEntry × List DirEntry)) (l2 : List DirEntry) (s : RedState) (st : RedStatus)
    (hm : MonRun x ((l, l2) :: rs) (RedState.init d) s st) : st = .stopped ∧ s.log = [] ∧ s.dir = d := by
  obtain ⟨f, hf, he⟩ := h
  have hn : l.any DirEntry.isNxs = true := List.any_eq_true.2 ⟨f, hf, (isNxs_iff f).2 he⟩
  cases hm with
  | stop _ => exact ⟨rfl, rfl, rfl⟩
  | exit h _ => rw [hn] at h; cases h
  | round h _ _ => rw [hn] at h; cases h

example : EndFile ⟨"VENUS_1.nxs.h5".toList, true, some []⟩ := ⟨rfl, "VENUS_1".toList, by decide, by decide⟩

/-- C48 is false for files still being written: whatever is added to a file after its first success is never read.  The
run of `exampleRun` goes on and stops with the file grown, and the record has only the first data. -/
theorem c48_false_growing (x : RedCtx) (hsr : x.sr = .fin 1) (n : Nat) (he : x.edges.length = n + 1) (hn : 0 < n) (d : Dir)
    (more : Bytes) (f : DirEntry) (hf : EndFile f) :
    ∃ im s e, e = (⟨"a.tpx3".toList, true, some (bytesOf 0x0000000033585054#64 ++ more)⟩ : DirEntry) ∧
      MonRun x [([], [⟨"a.tpx3".toList, true, some (bytesOf 0x0000000033585054#64)⟩]), ([e], [e]), ([e, f], [e, f])]
        (RedState.init d) s .stopped ∧ s.log = [.done "a.tpx3".toList (bytesOf 0x0000000033585054#64) im] := by
  obtain ⟨im, h1, h2⟩ := images_header x hsr n he hn Clock.zero
  obtain ⟨d1, h3⟩ := saveRun_exists (by omega) x.out x.base x.edges im h2 he d
  refine ⟨im, ⟨_, d1, _⟩, _, rfl, .round rfl (.done (by decide) (by simp [RedState.init]) rfl h1 h3 .nil)
    (.round ?_ (.skip ?_ ?_ .nil) (.stop ?_)), rfl⟩
  · simp [DirEntry.isNxs]; intro h; exact absurd h (by decide)
  · simp [DirEntry.isRaw]; decide
  · have : DirEntry.stem ⟨"a.tpx3".toList, true, some (bytesOf 0x0000000033585054#64 ++ more)⟩ =
        DirEntry.stem ⟨"a.tpx3".toList, true, some (bytesOf 0x0000000033585054#64)⟩ := rfl
    rw [this]; simp
  · simp [(isNxs_iff f).2 hf]

end Verif.Props
