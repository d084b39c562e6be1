import Verif.Model.SelfCheck
import Verif.Props.Bench

/-! # C89: the program that checks its own file (benchmark_raw2events.cpp) -/

namespace Verif.Props

open Verif Verif.Spec

/-! ## The largest value -/

theorem maxOf_nats (xs : List Nat) : maxOf (xs.map fun n : Nat => .fin (n : ℚ)) = .fin ((xs.foldl max 0 : Nat) : ℚ) := by
  unfold maxOf
  have : ∀ (xs : List Nat) (a : Nat), (xs.map fun n : Nat => F64.fin (n : ℚ)).foldl (fun m x => if F64.lt m x then x else m)
      (.fin (a : ℚ)) = .fin ((xs.foldl max a : Nat) : ℚ) := by
    intro xs
    induction xs with
    | nil => intro a; rfl
    | cons x xs ih =>
      intro a
      rw [List.map_cons, List.foldl_cons, List.foldl_cons]
      by_cases h : a < x
      · have : F64.lt (.fin (a : ℚ)) (.fin (x : ℚ)) = true := by
          simp only [F64.lt, decide_eq_true_eq]
          exact_mod_cast h
        rw [if_pos this, ih, Nat.max_eq_right h.le]
      · have : ¬ F64.lt (.fin (a : ℚ)) (.fin (x : ℚ)) = true := by
          simp only [F64.lt, decide_eq_true_eq]
          intro hx
          exact h (by exact_mod_cast hx)
        rw [if_neg this, ih, Nat.max_eq_left (by omega)]
  have h0 := this xs 0
  rwa [Nat.cast_zero] at h0

theorem foldl_max (xs : List Nat) (a : Nat) : a ≤ xs.foldl max a ∧ (∀ x ∈ xs, x ≤ xs.foldl max a) ∧
    (xs.foldl max a = a ∨ xs.foldl max a ∈ xs) := by
  induction xs generalizing a with
  | nil => simp
  | cons x xs ih =>
    rw [List.foldl_cons]
    obtain ⟨h1, h2, h3⟩ := ih (max a x)
    refine ⟨by omega, ?_, ?_⟩
    · intro y hy
      rcases List.mem_cons.mp hy with rfl | hy
      · omega
      · exact h2 y hy
    · rcases h3 with h3 | h3
      · by_cases h : a ≤ x
        · right; rw [h3, Nat.max_eq_right h]; simp
        · left; rw [h3, Nat.max_eq_left (by omega)]
      · right; simp [h3]

/-- The largest arrival time of some hits, in ns. -/
theorem maxOf_spider (hits : List Hit) (hs : ∀ h ∈ hits, h.spidertime.toNat < 2 ^ 48) (hne : hits ≠ []) :
    ∃ h ∈ hits, maxOf (hits.map fun h => h.spidertimeNs) = .fin (25 * h.spidertime.toNat) ∧
      ∀ g ∈ hits, g.spidertime.toNat ≤ h.spidertime.toNat := by
  have e : (hits.map fun h => h.spidertimeNs) =
      (hits.map fun h => 25 * h.spidertime.toNat).map fun n : Nat => F64.fin (n : ℚ) := by
    rw [List.map_map]
    apply List.map_congr_left
    intro h hh
    have := hs h hh
    unfold Hit.spidertimeNs
    rw [mul25_exact _ (by rw [Nat.abs_cast]; omega)]
    simp only [Function.comp_apply]
    push_cast
    rfl
  obtain ⟨-, h2, h3⟩ := foldl_max (hits.map fun h => 25 * h.spidertime.toNat) 0
  have h4 : (hits.map fun h => 25 * h.spidertime.toNat).foldl max 0 ∈ hits.map fun h => 25 * h.spidertime.toNat := by
    rcases h3 with h3 | h3
    · obtain ⟨x, hx⟩ := List.exists_mem_of_ne_nil hits hne
      have := h2 _ (List.mem_map_of_mem hx)
      rw [h3] at this ⊢
      exact List.mem_map.mpr ⟨x, hx, by omega⟩
    · exact h3
  obtain ⟨h, hh, he⟩ := List.mem_map.mp h4
  refine ⟨h, hh, ?_, ?_⟩
  · rw [e, maxOf_nats, ← he]
    push_cast
    rfl
  · intro g hg
    have := h2 _ (List.mem_map_of_mem hg)
    omega

/-! ## The check of the times of flight -/

/-- The check can find nothing: the loop that folds the times of flight has the same limit. -/
theorem lateTof_never (t : Nat) (ht : t * 25 ≤ 16670000) : lateTof (.fin (25 * t)) = false := by
  by_contra h
  rw [Bool.not_eq_false] at h
  have := ms_mono _ t 666800 (by omega) (by norm_num) h
  revert this
  decide +kernel

theorem checkBadTof_none (hits : List Hit) (h : ∀ x ∈ hits, ∃ t : U32, x.tof = some t ∧ t.toNat * 25 ≤ 16670000) :
    checkBadTof hits = .ok 0 := by
  induction hits with
  | nil => rfl
  | cons x hits ih =>
    obtain ⟨t, h1, h2⟩ := h x (by simp)
    rw [checkBadTof, tofNs_exact x t h1]
    simp only [bind, Res.bind, ih fun y hy => h y (by simp [hy])]
    rw [lateTof_never _ h2]
    rfl

/-! ## The program -/

theorem chunk_regular (cs : List Chunk) (hw : ∀ c ∈ cs, c.WellFormed)
    (hs : ∀ hs ∈ seenHits true cs, ∀ h ∈ hs, h.spidertime.toNat < 2 ^ 48) :
    ∀ h ∈ (seenHits true cs).flatten, RegularHit h ∧ ∃ t : U32, h.tof = some t ∧ t.toNat * 25 ≤ 16670000 := by
  intro h hh
  obtain ⟨l, hl, hh⟩ := List.mem_flatten.mp hh
  have h48 := hs l hl h hh
  obtain ⟨w, tdc, gdc, chip, rfl⟩ := (seenHits_from true cs hw l hl).2 h hh
  obtain ⟨r1, r2, r3, r4, r5, -⟩ := hit_ranges .gdc _ chip w tdc gdc (Or.inl ⟨rfl, rfl⟩)
  obtain ⟨t, ht⟩ := c05_bounded w tdc gdc chip
  refine ⟨⟨?_, ?_, ?_, ?_, ?_, by rw [ht.1]; simp, h48⟩, t, ht⟩
  all_goals rw [abs_of_nonneg (by omega)]; omega

/-- What happens up to the file. -/
theorem raw2events_core (solve : List GaussRow → F64 × F64) (micros : Nat) (cs : List Chunk)
    (hw : ∀ c ∈ cs, c.WellFormed) (hn : ∀ c ∈ cs, c.NoLookAlike)
    (hs : ∀ hs ∈ seenHits true cs, ∀ h ∈ hs, h.spidertime.toNat < 2 ^ 48) (fs : Fs) :
    raw2events solve micros (streamBytes cs) fs =
      (saveNew micros verifyName "hits".toList
        (hitAttrs.map fun v => (v.1, (seenHits true cs).flatten.map fun x => .fin (v.2 x)))
        (seenHits true cs).flatten.length fs).bind fun fs' => (readSpider fs').bind fun col =>
          .ok (⟨(seenHits true cs).flatten.length, 0, maxOf ((seenHits true cs).flatten.map fun h => h.spidertimeNs),
            maxOf col⟩, fs') := by
  have hd := seenHits_defined true cs hw
  have hreg := chunk_regular cs hw hs
  obtain ⟨v, hv⟩ := evAll_returns ⟨.gdc, mmapParams, solve⟩ (seenHits true cs) fun l hl h hh => ⟨hs l hl h hh, hd l hl h hh⟩
  obtain ⟨e1, -⟩ := evAll_fst _ _ v hv
  obtain ⟨bs1, l1, l2⟩ := round_core ⟨.gdc, mmapParams, solve⟩ rfl true cs Clock.zero hw hn
  rw [if_pos rfl] at l1
  rw [roundHits_start, hv] at l2
  simp only at l2
  unfold raw2events
  simp only [bind]
  rw [findTPX3H_eq, wordsOf_streamBytes]
  simp only [Res.bind]
  rw [l1]
  simp only
  rw [bodyLoop_eq _ _ _ rfl rfl]
  cases ho : oneAll ⟨.gdc, streamBytes cs, mmapParams, solve⟩ (bs1.map fun b => ⟨b, []⟩) with
  | ub u => rw [ho] at l2; cases l2
  | throws e => rw [ho] at l2; cases l2
  | ok es =>
    rw [ho] at l2
    simp only [Res.bind, Res.ok.injEq] at l2
    have hh : (es.flatMap fun e => e.batch.hits) = (seenHits true cs).flatten := by
      rw [← e1, ← l2, outputOf, List.map_map, List.flatMap_def]
      rfl
    simp only
    rw [hh, checkBadTof_none _ fun x hx => (hreg x hx).2, hit_values _ fun x hx => (hreg x hx).1]

/-- C89: the number of hits is right, the check of the times of flight finds nothing, and when no file of that name exists and there
is a hit, both largest arrival times are the largest arrival time of the hits.  Missing: a file of that name that exists
(`c89_stale`), a stream without hits (`c89_empty`). -/
theorem c89_partial (solve : List GaussRow → F64 × F64) (micros : Nat) (cs : List Chunk)
    (hw : ∀ c ∈ cs, c.WellFormed) (hn : ∀ c ∈ cs, c.NoLookAlike)
    (hs : ∀ hs ∈ seenHits true cs, ∀ h ∈ hs, h.spidertime.toNat < 2 ^ 48) (fs : Fs) (hnew : fs verifyName = none)
    (hne : (seenHits true cs).flatten ≠ []) :
    ∃ fs' h, h ∈ (seenHits true cs).flatten ∧ (∀ g ∈ (seenHits true cs).flatten, g.spidertime.toNat ≤ h.spidertime.toNat) ∧
      raw2events solve micros (streamBytes cs) fs = .ok (⟨(seenHits true cs).flatten.length, 0,
        .fin (25 * h.spidertime.toNat), .fin (25 * h.spidertime.toNat)⟩, fs') ∧
      ∀ p, p ≠ verifyName → fs' p = fs p := by
  have hs' : ∀ h ∈ (seenHits true cs).flatten, h.spidertime.toNat < 2 ^ 48 := fun h hh => by
    obtain ⟨l, hl, hh⟩ := List.mem_flatten.mp hh
    exact hs l hl h hh
  obtain ⟨h, hh, hm, hmax⟩ := maxOf_spider _ hs' hne
  rw [raw2events_core solve micros cs hw hn hs]
  generalize (seenHits true cs).flatten = H at *
  have hl : H.length ≠ 0 := fun h => hne (List.length_eq_zero_iff.mp h)
  have e : (H.map fun h => h.spidertimeNs) = H.map fun h => F64.fin (25 * h.spidertime.toNat) := by
    apply List.map_congr_left
    intro g hg
    have := hs' g hg
    unfold Hit.spidertimeNs
    rw [mul25_exact _ (by rw [Nat.abs_cast]; omega)]
    push_cast
    rfl
  refine ⟨Function.update fs verifyName (some (.h5 [("hits".toList, (hitAttrs.map fun v =>
    (v.1, H.map fun x => F64.fin (v.2 x))).map fun c => (c.1, ⟨c.2, false⟩))])), h, hh, hmax, ?_,
    fun p hp => Function.update_of_ne hp _ _⟩
  have hr : readSpider (Function.update fs verifyName (some (.h5 [("hits".toList, (hitAttrs.map fun v =>
      (v.1, H.map fun x => F64.fin (v.2 x))).map fun c => (c.1, ⟨c.2, false⟩))]))) =
      .ok (H.map fun h => h.spidertimeNs) := by
    unfold readSpider
    rw [Function.update_self, e]
    simp [hitAttrs, List.lookup]
  have hsave : saveNew micros verifyName "hits".toList (hitAttrs.map fun v => (v.1, H.map fun x => F64.fin (v.2 x))) H.length
      fs = .ok (Function.update fs verifyName (some (.h5 [("hits".toList, (hitAttrs.map fun v =>
        (v.1, H.map fun x => F64.fin (v.2 x))).map fun c => (c.1, ⟨c.2, false⟩))]))) := by
    unfold saveNew saveOrAppend
    rw [if_neg hl]
    simp [hnew]
  rw [hsave]
  simp only [Res.bind]
  rw [hr]
  simp only
  rw [hm]

/-- C89 is false when a file of that name exists: the hits go to another file, unless the names agree by chance, and what is read
back is whatever the old file says. -/
theorem c89_stale (solve : List GaussRow → F64 × F64) (micros : Nat) (cs : List Chunk)
    (hw : ∀ c ∈ cs, c.WellFormed) (hn : ∀ c ∈ cs, c.NoLookAlike)
    (hs : ∀ hs ∈ seenHits true cs, ∀ h ∈ hs, h.spidertime.toNat < 2 ^ 48) (fs : Fs) (f : H5) (g : Group) (old : Dataset)
    (hold : fs verifyName = some (.h5 f)) (hg : f.lookup "hits".toList = some g)
    (hc : g.lookup "spidertime_ns".toList = some old) :
    ∃ fs', raw2events solve micros (streamBytes cs) fs = .ok (⟨(seenHits true cs).flatten.length, 0,
        maxOf ((seenHits true cs).flatten.map fun h => h.spidertimeNs), maxOf old.data⟩, fs') ∧
      fs' verifyName = fs verifyName := by
  rw [raw2events_core solve micros cs hw hn hs]
  have hread : ∀ fs' : Fs, fs' verifyName = fs verifyName → readSpider fs' = .ok old.data := by
    intro fs' h
    unfold readSpider
    rw [h, hold]
    simp only [hg, Option.bind_some, hc]
  unfold saveNew saveOrAppend
  rw [if_pos (show (fs verifyName).isSome = true by simp [hold])]
  by_cases h0 : (seenHits true cs).flatten.length = 0
  · rw [if_pos h0]
    simp only [Res.bind, hread fs rfl]
    exact ⟨fs, rfl, rfl⟩
  · rw [if_neg h0]
    simp only [Bool.not_false, Bool.or_true, if_true, Res.bind]
    rw [hread _ (Function.update_of_ne (c44_stamp_differs verifyName micros).symm _ _)]
    exact ⟨_, rfl, Function.update_of_ne (c44_stamp_differs verifyName micros).symm _ _⟩

/-- C89 is false for a stream without hits: nothing is saved, and the file that is missing ends the program. -/
theorem c89_empty (solve : List GaussRow → F64 × F64) (micros : Nat) (cs : List Chunk)
    (hw : ∀ c ∈ cs, c.WellFormed) (hn : ∀ c ∈ cs, c.NoLookAlike) (fs : Fs) (hnew : fs verifyName = none)
    (he : (seenHits true cs).flatten = []) : raw2events solve micros (streamBytes cs) fs = .throws "H5" := by
  rw [raw2events_core solve micros cs hw hn (fun l hl h hh => absurd (List.mem_flatten.mpr ⟨l, hl, hh⟩) (by simp [he]))]
  unfold saveNew saveOrAppend
  rw [if_pos (show (seenHits true cs).flatten.length = 0 by rw [he]; rfl)]
  have hr : readSpider fs = .throws "H5" := by
    unfold readSpider
    rw [hnew]
  show (readSpider fs).bind _ = _
  rw [hr]
  rfl

/-- What a run reports. -/
def reportOf (r : Res (SelfReport × Fs)) : Option SelfReport :=
  match r with
  | .ok (s, _) => some s
  | _ => none

/-- The disk after a run. -/
def diskOf (r : Res (SelfReport × Fs)) : Fs :=
  match r with
  | .ok (_, fs) => fs
  | _ => fun _ => none

/-- C89 is false: the program run on two files in one directory; the second run reads back the first file. -/
theorem c89_false : reportOf (raw2events noSolve 0 (streamBytes (exOne 0x1001 157)) fun _ => none) =
      some ⟨1, 0, .fin 3925, .fin 3925⟩ ∧
    (diskOf (raw2events noSolve 0 (streamBytes (exOne 0x1001 157)) fun _ => none) "verify_spidertime.h5".toList).isSome ∧
    reportOf (raw2events noSolve 1 (streamBytes (exOne 0x1001 13))
      (diskOf (raw2events noSolve 0 (streamBytes (exOne 0x1001 157)) fun _ => none))) =
      some ⟨1, 0, .fin 325, .fin 3925⟩ := by
  decide +kernel

/-- Without hits and without a file. -/
example : (seenHits true [⟨0x0008000033585054#64, [0x6F00000000005000#64]⟩]).flatten = [] := by decide +kernel

/-! ## The number of hits without timestamps -/

theorem extract_alone (pre : List U64) (cs : List Chunk) (hw : ∀ k ∈ cs, k.WellFormed) (hn : ∀ k ∈ cs, k.NoLookAlike)
    (buf : Bytes) (hbuf : buf = (pre ++ streamWords cs).flatMap bytesOf) :
    ∃ bs, extractAll .gdc buf (scan (streamWords cs) (8 * pre.length)) = .ok bs ∧
      bs.map Batch.hits = roundHits false Clock.zero cs := by
  induction cs generalizing pre with
  | nil => exact ⟨[], rfl, rfl⟩
  | cons k ks ih =>
    have e1 : pre ++ k.header :: (k.packets ++ streamWords ks) = (pre ++ k.header :: k.packets) ++ streamWords ks := by
      simp
    have e2 : 8 * pre.length + 8 + 8 * k.packets.length = 8 * (pre ++ k.header :: k.packets).length := by
      simp only [List.length_append, List.length_cons]; omega
    obtain ⟨bs, i1, i2⟩ := ih (pre ++ k.header :: k.packets)
      (fun d hd => hw d (by simp [hd])) (fun d hd => hn d (by simp [hd])) (by rw [hbuf, streamWords_cons, e1])
    have hpk : batchPackets buf (8 * pre.length) k.packets.length = k.packets := by
      rw [hbuf, streamWords_cons]
      exact batchPackets_at pre k.packets (streamWords ks) k.header
    have hlen : buf.length % 8 = 0 := by rw [hbuf, length_flatMap_bytesOf]; omega
    have hp : ¬ reachesPartial buf (8 * pre.length) k.packets.length := by
      unfold reachesPartial; omega
    rw [streamWords_cons, scan_chunk _ _ _ (hw k (by simp)), scan_none _ _ (hn k (by simp)), List.nil_append, e2]
    obtain ⟨B, hB⟩ : ∃ B, B = chunkBatch (8 * pre.length) k := ⟨_, rfl⟩
    have f1 : B.index = 8 * pre.length ∧ B.numPackets = k.packets.length ∧ B.chip = headerChipId k.header ∧
        B.hits = [] ∧ B.clock = Clock.zero := by
      rw [hB]; exact ⟨rfl, rfl, rfl, rfl, rfl⟩
    rw [← hB, extractAll]
    have hx := extractHits_eq .gdc buf B
    rw [if_neg (by rw [f1.1, f1.2.1]; exact hp), f1.1, f1.2.1, f1.2.2.1, f1.2.2.2.1, f1.2.2.2.2, hpk, List.nil_append] at hx
    simp only [bind, hx, Res.bind, i1]
    refine ⟨_, rfl, ?_⟩
    rw [List.map_cons, i2]
    simp [roundHits]

/-- C89, benchmark_raw2hits.cpp: the number of hits when every chunk starts from time 0. -/
theorem c89_raw2hits (cs : List Chunk) (hw : ∀ c ∈ cs, c.WellFormed) (hn : ∀ c ∈ cs, c.NoLookAlike) :
    raw2hits (streamBytes cs) = .ok (seenHits false cs).flatten.length := by
  obtain ⟨bs, h1, h2⟩ := extract_alone [] cs hw hn (streamBytes cs) rfl
  unfold raw2hits
  rw [findTPX3H_eq, wordsOf_streamBytes]
  simp only [bind, Res.bind]
  rw [show 8 * ([] : List U64).length = 0 from rfl] at h1
  rw [h1]
  simp only
  rw [← roundHits_start, ← h2, List.flatMap_def]

/-- C89 is false for that program: the hit of the chunk without a trigger is not counted. -/
theorem c89_false_raw2hits : raw2hits (streamBytes exMapped) = .ok 1 ∧ (seenHits true exMapped).flatten.length = 2 := by
  rw [c89_raw2hits exMapped (by decide) exMapped_noLookAlike]
  exact ⟨by rw [show (seenHits false exMapped).flatten.length = 1 by decide +kernel], by decide +kernel⟩

end Verif.Props
