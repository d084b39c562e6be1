import Verif.Spec.Split
import Verif.Props.Damage

/-! # C126: a measurement that lies in several files -/

namespace Verif.Props

open Verif Verif.Spec

/-! ## Chunks of a divided file -/

theorem announced_closed (a b : List U64) (h : Closed a) : announced (a ++ b) = announced a ++ announced b := by
  induction a with
  | nil => rfl
  | cons w a ih =>
    obtain ⟨h1, h2⟩ := h
    rw [List.cons_append]
    simp only [announced]
    split_ifs with hw
    · rw [ih h2, List.take_append_of_le_length (h1 hw), List.cons_append]
    · exact ih h2

theorem fileChunks_nil (n : Nat) (hn0 : 0 < n) : fileChunks n [] = [] := by
  unfold fileChunks
  rw [pieces_nil n hn0]
  rfl

theorem fileChunks_small (n : Nat) (hn0 : 0 < n) (a : Bytes) (h : a.length ≤ n) : fileChunks n a = announced (wordsOf a) := by
  by_cases ha : a = []
  · subst ha
    rw [fileChunks_nil n hn0]
    rfl
  · unfold fileChunks
    rw [pieces_cons n hn0 a ha, List.take_of_length_le h, List.drop_of_length_le h, pieces_nil n hn0]
    simp

theorem pieces_aligned (n : Nat) (hn0 : 0 < n) (k : Nat) (a b : Bytes) (h : a.length = n * k) :
    pieces n (a ++ b) = pieces n a ++ pieces n b := by
  induction k generalizing a with
  | zero =>
    rw [Nat.mul_zero, List.length_eq_zero_iff] at h
    subst h
    rw [pieces_nil n hn0]
    rfl
  | succ k ih =>
    rw [Nat.mul_succ] at h
    have hne : a ≠ [] := by
      rw [← List.length_pos_iff]
      omega
    rw [pieces_cons n hn0 a hne, pieces_cons n hn0 (a ++ b) (by simp [hne]), List.take_append_of_le_length (by omega),
      List.drop_append_of_le_length (by omega), ih (a.drop n) (by rw [List.length_drop]; omega)]
    rfl

/-- The chunks of a divided file are those of its parts. -/
theorem fileChunks_divided (n : Nat) (hn0 : 0 < n) (a b : Bytes) (h : Divided n a b) :
    fileChunks n (a ++ b) = fileChunks n a ++ fileChunks n b := by
  rcases h with ⟨k, hk⟩ | ⟨h1, h2, h3⟩
  · unfold fileChunks
    rw [pieces_aligned n hn0 k a b hk, List.flatMap_append]
  · rw [fileChunks_small n hn0 (a ++ b) (by rw [List.length_append]; exact h3), fileChunks_small n hn0 a (by omega),
      fileChunks_small n hn0 b (by omega), ← announced_closed _ _ h2]
    congr 1
    conv_lhs => rw [bytes_words (a.length / 8) a (by omega)]
    rw [wordsOf_flatMap_append]

/-! ## With the global clock -/

/-- C126: the batches of the second part on its own are those of the whole file as soon as the packets of the part have given the
times; those of the first part are the first ones of the whole. -/
theorem c126_gdc (x : CliCtx) (hx : x.mode = .gdc) (n : Nat) (hn0 : 0 < n) (a b : Bytes) (hd : Divided n a b) (f fa fb : Nat)
    (bs ba bb : List EventBatch) (c ca cb : Clock) (h : cliRun x n f (a ++ b) = .ok (some (bs, c)))
    (h1 : cliRun x n fa a = .ok (some (ba, ca))) (h2 : cliRun x n fb b = .ok (some (bb, cb))) (D E : List Chunk)
    (he : fileChunks n b = D ++ E) (hg : GivesTimes (D.flatMap Chunk.packets)) :
    ∃ M M' R, outputOf bs = outputOf ba ++ (M ++ R) ∧ outputOf bb = M' ++ R ∧ M.length = D.length ∧ M'.length = D.length ∧
      R.length = E.length := by
  rw [output_of_hits x n hn0 _ f bs c h, output_of_hits x n hn0 _ fa ba ca h1, output_of_hits x n hn0 _ fb bb cb h2,
    fileChunks_divided n hn0 a b hd, he, hx, chunkHits_append, chunkHits_append, chunkHits_append]
  simp only [List.map_append]
  refine ⟨_, _, _, rfl, congrArg₂ _ rfl (congrArg (List.map _) (congrArg (chunkHits .gdc · E) ?_)), by rw [List.length_map, chunkHits_length],
    by rw [List.length_map, chunkHits_length], by rw [List.length_map, chunkHits_length]⟩
  exact timesG_gives hg _ _

/-- C126: files that each date their own hits, run one by one, give what the whole gives, batch by batch, however many files. -/
theorem c126_parts (x : CliCtx) (hx : x.mode = .gdc) (n : Nat) (hn0 : 0 < n) (l : List (Bytes × List EventBatch))
    (hd : AllDivided n (l.map Prod.fst)) (hs : ∀ p ∈ l, DatesItself n p.1)
    (hr : ∀ p ∈ l, ∃ f c, cliRun x n f p.1 = .ok (some (p.2, c))) (f : Nat) (bs : List EventBatch) (c : Clock)
    (h : cliRun x n f (l.map Prod.fst).flatten = .ok (some (bs, c))) :
    outputOf bs = l.flatMap fun p => outputOf p.2 := by
  rw [output_of_hits x n hn0 _ f bs c h, hx]
  clear h
  have agree : ∀ p ∈ l, ∀ t, chunkHits .gdc t (fileChunks n p.1) = chunkHits .gdc ⟨0, 0, 0⟩ (fileChunks n p.1) := by
    intro p hp t
    refine chunkHits_agree (fileChunks n p.1) [] t ⟨0, 0, 0⟩ ?_
    intro a w b e _ hw
    exact hs p hp a w b e hw
  generalize (⟨0, 0, 0⟩ : Times) = t0 at agree ⊢
  have key : ∀ t, (chunkHits .gdc t (fileChunks n (l.map Prod.fst).flatten)).map (fun hs => (hs, eventsGiven x hs)) =
      l.flatMap fun p => outputOf p.2 := by
    induction l with
    | nil => intro t; simp [fileChunks_nil n hn0, chunkHits]
    | cons p l ih =>
      intro t
      obtain ⟨fp, cp, hp⟩ := hr p (by simp)
      obtain ⟨d1, d2⟩ := hd
      rw [List.map_cons, List.flatten_cons, fileChunks_divided n hn0 _ _ d1, chunkHits_append, List.map_append, List.flatMap_cons,
        output_of_hits x n hn0 _ fp p.2 cp hp, hx, agree p (by simp) t]
      have h0 := agree p (by simp) ⟨0, 0, 0⟩
      rw [h0]
      exact congrArg _ (ih d2 (fun q hq => hs q (by simp [hq])) (fun q hq => hr q (by simp [hq])) (fun q hq => agree q (by simp [hq])) _)
  exact key t0

/-! ## Without the global clock -/

theorem hit_not_trigger {w : U64} (h : IsHitPacket w) : ¬ IsTriggerPacket w := by
  unfold IsHitPacket kind at h
  unfold IsTriggerPacket
  unfold field at *
  omega

theorem nextT_plain (w : U64) (h : ¬ IsTriggerPacket w) (t : Times) : nextT w t = t := by
  unfold nextT
  rw [if_neg h]

theorem timesT_plain (ws : List U64) (h : ∀ w ∈ ws, ¬ IsTriggerPacket w) (t : Times) : timesT t ws = t := by
  induction ws with
  | nil => rfl
  | cons w ws ih =>
    rw [timesT_cons, nextT_plain w (h w (by simp))]
    exact ih fun v hv => h v (by simp [hv])

theorem hitsT_untimed (chip : Int) (ws : List U64) (h : ∀ w ∈ ws, ¬ IsTriggerPacket w) (t : Times) (h0 : t.tdc = 0) :
    hitsT chip t ws = [] := by
  induction ws with
  | nil => rfl
  | cons w ws ih =>
    rw [hitsT_cons, nextT_plain w (h w (by simp)), ih fun v hv => h v (by simp [hv])]
    simp [h0]

theorem chunkHitsT_untimed (cs : List Chunk) (h : ∀ k ∈ cs, ∀ w ∈ k.packets, ¬ IsTriggerPacket w) (t : Times) (h0 : t.tdc = 0) :
    chunkHits .tdc t cs = List.replicate cs.length [] := by
  induction cs with
  | nil => rfl
  | cons k cs ih =>
    rw [chunkHits_cons]
    simp only [hitsIn, timesOf]
    rw [hitsT_untimed _ _ (h k (by simp)) t h0, timesT_plain _ (h k (by simp)), ih fun k hk => h k (by simp [hk])]
    rfl

theorem nextG_untriggered (w : U64) (h : ¬ IsTriggerPacket w) (t : Times) : (nextG w t).tdc = t.tdc := by
  unfold nextG
  rw [if_neg h]
  split_ifs <;> rfl

theorem hitsG_untimed (chip : Int) (ws : List U64) (h : ∀ w ∈ ws, ¬ IsTriggerPacket w) (t : Times) (h0 : t.tdc = 0) :
    hitsG chip t ws = [] ∧ (timesG t ws).tdc = 0 := by
  induction ws generalizing t with
  | nil => exact ⟨rfl, h0⟩
  | cons w ws ih =>
    obtain ⟨h1, h2⟩ := ih (fun v hv => h v (by simp [hv])) (nextG w t) (by rw [nextG_untriggered w (h w (by simp)), h0])
    rw [hitsG_cons, timesG_cons]
    exact ⟨by simp [h0, h1], h2⟩

/-- C126: in both modes, a part without a trigger gives no hits on its own. -/
theorem c126_untriggered (x : CliCtx) (n : Nat) (hn0 : 0 < n) (b : Bytes) (h : ∀ w ∈ packetsRead n b, ¬ IsTriggerPacket w) (f : Nat)
    (bs : List EventBatch) (c : Clock) (hr : cliRun x n f b = .ok (some (bs, c))) : ∀ e ∈ bs, e.batch.hits = [] := by
  obtain ⟨-, e, -⟩ := c94_hits x n hn0 b f bs c hr
  have h' : ∀ k ∈ fileChunks n b, ∀ w ∈ k.packets, ¬ IsTriggerPacket w :=
    fun k hk w hw => h w (List.mem_flatMap.mpr ⟨k, hk, hw⟩)
  have key : ∀ (cs : List Chunk) (t : Times), (∀ k ∈ cs, ∀ w ∈ k.packets, ¬ IsTriggerPacket w) → t.tdc = 0 →
      ∀ hs ∈ chunkHits x.mode t cs, hs = [] := by
    intro cs
    cases x.mode with
    | tdc =>
      intro t hk h0 hs hm
      rw [chunkHitsT_untimed cs hk t h0] at hm
      exact List.eq_of_mem_replicate hm
    | gdc =>
      induction cs with
      | nil => intro t _ _ hs hm; simp [chunkHits] at hm
      | cons k cs ih =>
        intro t hk h0 hs hm
        obtain ⟨g1, g2⟩ := hitsG_untimed (headerChipId k.header) k.packets (hk k (by simp)) t h0
        rw [chunkHits_cons, List.mem_cons] at hm
        rcases hm with rfl | hm
        · exact g1
        · exact ih _ (fun k hk' => hk k (by simp [hk'])) g2 hs hm
  intro b' hb
  refine key (fileChunks n b) ⟨0, 0, 0⟩ h' rfl _ ?_
  rw [← e]
  exact List.mem_map.mpr ⟨b', hb, rfl⟩

/-- C126: as long as the trigger counter has not begun a new round, the second part on its own lacks exactly the hits before its
first trigger; all others are the same, batch by batch, and so are the events of all batches after that trigger. -/
theorem c126_tdc (x : CliCtx) (hx : x.mode = .tdc) (n : Nat) (hn0 : 0 < n) (a b : Bytes) (hd : Divided n a b) (f fa fb : Nat)
    (bs ba bb : List EventBatch) (c ca cb : Clock) (h : cliRun x n f (a ++ b) = .ok (some (bs, c)))
    (h1 : cliRun x n fa a = .ok (some (ba, ca))) (h2 : cliRun x n fb b = .ok (some (bb, cb)))
    (D E : List Chunk) (hdr : U64) (p q : List U64) (w : U64) (he : fileChunks n b = D ++ ⟨hdr, p ++ w :: q⟩ :: E)
    (hD : ∀ k ∈ D, ∀ v ∈ k.packets, ¬ IsTriggerPacket v) (hp : ∀ v ∈ p, ¬ IsTriggerPacket v) (hw : IsTriggerPacket w) (s : Times)
    (hs : s = timesT ⟨0, 0, 0⟩ (packetsRead n a)) (hr : s.tdc < 2 ^ 32) (hm : s.tdc ≤ field w 12 32 + 2 ^ 31) :
    ∃ Y e e' R, outputOf bs = outputOf ba ++ ((chunkHits .tdc s D).map (fun hs => (hs, eventsGiven x hs)) ++
        (hitsT (headerChipId hdr) s p ++ Y, e) :: R) ∧
      outputOf bb = List.replicate D.length ([], eventsGiven x []) ++ (Y, e') :: R := by
  have hpD : ∀ v ∈ D.flatMap Chunk.packets, ¬ IsTriggerPacket v := by
    intro v hv
    obtain ⟨k, hk, hv⟩ := List.mem_flatMap.mp hv
    exact hD k hk v hv
  have hlow : s.gdc = 0 ∧ s.low = 0 := by
    rw [hs]
    generalize packetsRead n a = ws
    have : ∀ t : Times, (timesT t ws).gdc = t.gdc ∧ (timesT t ws).low = t.low := by
      induction ws with
      | nil => intro t; exact ⟨rfl, rfl⟩
      | cons v ws ih =>
        intro t
        rw [timesT_cons]
        obtain ⟨i1, i2⟩ := ih (nextT v t)
        rw [i1, i2]
        unfold nextT
        split_ifs <;> exact ⟨rfl, rfl⟩
    exact this _
  have hnext : nextT w s = nextT w ⟨0, 0, 0⟩ := by
    unfold nextT
    rw [if_pos hw, if_pos hw]
    obtain ⟨u, g, l⟩ := s
    obtain ⟨rfl, rfl⟩ := hlow
    have e : rollTime (field w 12 32) u = rollTime (field w 12 32) 0 := by
      simp only at hr hm
      generalize field w 12 32 = m at hm
      unfold rollTime
      rw [if_neg (by omega), if_neg (by omega)]
      omega
    show Times.mk _ _ _ = Times.mk _ _ _
    rw [e]
  have hh : ∀ chip t, hitsT chip t (w :: q) = hitsT chip (nextT w t) q := by
    intro chip t
    rw [hitsT_cons, if_neg, List.nil_append]
    rintro ⟨hh, -⟩
    exact hit_not_trigger hh hw
  have side : ∀ t : Times, nextT w t = nextT w ⟨0, 0, 0⟩ →
      chunkHits .tdc t (D ++ ⟨hdr, p ++ w :: q⟩ :: E) = chunkHits .tdc t D ++
        (hitsT (headerChipId hdr) t p ++ hitsT (headerChipId hdr) (nextT w ⟨0, 0, 0⟩) q) ::
          chunkHits .tdc (timesT (nextT w ⟨0, 0, 0⟩) q) E := by
    intro t ht
    rw [chunkHits_append, chunkHits_cons]
    simp only [hitsIn, timesOf]
    rw [timesT_plain _ hpD, hitsT_append, timesT_append, timesT_plain _ hp, hh, timesT_cons, ht]
  rw [output_of_hits x n hn0 _ f bs c h, output_of_hits x n hn0 _ fa ba ca h1, output_of_hits x n hn0 _ fb bb cb h2,
    fileChunks_divided n hn0 a b hd, he, hx, chunkHits_append]
  simp only [timesOf]
  rw [show timesT ⟨0, 0, 0⟩ ((fileChunks n a).flatMap Chunk.packets) = s from hs.symm, side s hnext, side ⟨0, 0, 0⟩ rfl,
    chunkHitsT_untimed D hD ⟨0, 0, 0⟩ rfl, hitsT_untimed _ p hp ⟨0, 0, 0⟩ rfl]
  simp only [List.map_append, List.map_cons, List.nil_append, List.map_replicate]
  exact ⟨_, _, _, _, rfl, rfl⟩

/-! ## What is lost or wrong beyond that -/

deriving instance DecidableEq for Chunk

theorem run_tofs (x : CliCtx) (n : Nat) (hn : n % 8 = 0) (ws : List U64) (h0 : ws ≠ []) (hl : 8 * ws.length ≤ n) (v : List (List (Option (BitVec 32))))
    (hv : (chunkHits x.mode ⟨0, 0, 0⟩ (announced ws)).map (List.map Hit.tof) = v)
    (hs : ∀ hs ∈ chunkHits x.mode ⟨0, 0, 0⟩ (announced ws), ∀ h ∈ hs, h.spidertime.toNat < 2 ^ 48 ∧ h.tof ≠ none) :
    ∃ f bs c, cliRun x n f (ws.flatMap bytesOf) = .ok (some (bs, c)) ∧ bs.map (fun b => b.batch.hits.map Hit.tof) = v := by
  obtain ⟨⟨f, bs, c, h⟩, -⟩ := runCounts x.mode n hn ws h0 hl _ rfl hs x rfl
  refine ⟨f, bs, c, h, ?_⟩
  have hpos : 0 < ws.length := List.length_pos_iff.mpr h0
  obtain ⟨-, h1, -⟩ := c94_hits x n (by omega) _ f bs c h
  rw [fileChunks_one n ws h0 hl] at h1
  rw [← hv, ← h1, List.map_map]
  rfl

/-- A global time, a trigger and a hit; then the lower half of a later global time in a chunk of its own; then the upper half, a
trigger and a hit. -/
def halves : List U64 := [0x0020000033585054#64, 0x4400000000100000#64, 0x4500000000000000#64, 0x6F00000000014000#64,
  0xB000000600000000#64, 0x0008000033585054#64, 0x4400400000100000#64, 0x0018000033585054#64, 0x4500000000010000#64, 0x6F00040000014000#64,
  0xB000000600000000#64]

/-- The hit of the second part on its own. -/
theorem halves_alone : chunkHits .gdc ⟨0, 0, 0⟩ (announced (halves.drop 7)) =
    [[hitGdc 0xB000000600000000#64 0x140000014#64 0x100000000#64 (headerChipId 0x0018000033585054#64)]] := by
  have ea : announced (halves.drop 7) =
      [⟨0x0018000033585054#64, [0x4500000000010000#64, 0x6F00040000014000#64, 0xB000000600000000#64]⟩] := by decide +kernel
  have hi : hitIndicesG ⟨0, 0, 0⟩ [0x4500000000010000#64, 0x6F00040000014000#64, 0xB000000600000000#64] = [2] := by decide +kernel
  have ht : timesG ⟨0, 0, 0⟩ [0x4500000000010000#64, 0x6F00040000014000#64] = ⟨0x140000014, 0x100000000, 0⟩ := by decide +kernel
  rw [ea, chunkHits_cons]
  show hitsG _ _ _ :: chunkHits .gdc _ [] = _
  unfold hitsG
  rw [hi, List.map_singleton]
  show [hitGdc 0xB000000600000000#64 (BitVec.ofNat 64 (timesG ⟨0, 0, 0⟩ [0x4500000000010000#64, 0x6F00040000014000#64]).tdc)
    (BitVec.ofNat 64 (timesG ⟨0, 0, 0⟩ [0x4500000000010000#64, 0x6F00040000014000#64]).gdc) _] :: [] = _
  rw [ht]

theorem halves_tof (chip : Int) : (hitGdc 0xB000000600000000#64 0x140000014#64 0x100000000#64 chip).tof = some 557199#32 := by
  have hs : (hitGdc 0xB000000600000000#64 0x140000014#64 0x100000000#64 chip).spidertime = 0x100000018#64 := by
    rw [hitGdc_spidertime, fixSpider_eq]; decide
  obtain ⟨t, ht, hb⟩ := c05_bounded 0xB000000600000000#64 0x140000014#64 0x100000000#64 chip
  have hr := c05_residue_exact _ _ _ _ t ht
  rw [hs, show (0x100000018#64 : U64).toNat = 4294967320 from by decide, show (0x140000014#64 : U64).toNat = 5368709140 from by decide] at hr
  rw [ht]
  have : t.toNat = 557199 := by omega
  congr 1
  apply BitVec.eq_of_toNat_eq
  rw [this]
  decide

/-- C126: with the global clock, a part that begins between the halves of the global time gives its hit another time of flight, and
nothing shows it. -/
theorem c126_false_half (x : CliCtx) (hx : x.mode = .gdc) :
    Divided 4096 ((halves.take 7).flatMap bytesOf) ((halves.drop 7).flatMap bytesOf) ∧
    (∃ f bs c, cliRun x 4096 f (halves.flatMap bytesOf) = .ok (some (bs, c)) ∧
      bs.map (fun b => b.batch.hits.map Hit.tof) = [[some 4#32], [], [some 4#32]]) ∧
    ∃ f bs c, cliRun x 4096 f ((halves.drop 7).flatMap bytesOf) = .ok (some (bs, c)) ∧
      bs.map (fun b => b.batch.hits.map Hit.tof) = [[some 557199#32]] := by
  refine ⟨.inr ⟨by decide +kernel, ?_, by decide +kernel⟩, run_tofs x _ (by decide) _ (by decide) (by decide) _ ?_ ?_,
    run_tofs x _ (by decide) _ (by decide) (by decide) _ ?_ ?_⟩
  · rw [wordsOf_flatMap]
    decide
  · rw [hx]
    decide +kernel
  · rw [hx]
    decide +kernel
  · rw [hx, halves_alone]
    simp only [List.map_cons, List.map_nil, halves_tof]
  · rw [hx, halves_alone]
    intro hs hm h hh
    rw [List.mem_singleton] at hm
    subst hm
    rw [List.mem_singleton] at hh
    subst hh
    refine ⟨?_, by rw [halves_tof]; simp⟩
    rw [hitGdc_spidertime, fixSpider_eq]
    decide

/-- C126: without the global clock, hits after the trigger counter has begun a new round have no time of flight in the whole file
and the program's behaviour is undefined there; each of the two parts is fine on its own. -/
theorem c126_false_round : Unsound .tdc 4096 ((afterTrigger 0x6F00080000A05000#64).flatMap bytesOf) ∧
    RunCounts .tdc 4096 (((afterTrigger 0x6F00080000A05000#64).take 2).flatMap bytesOf) [0] ∧
    RunCounts .tdc 4096 (((afterTrigger 0x6F00080000A05000#64).drop 2).flatMap bytesOf) [1] :=
  ⟨c119_false_trigger.2, runCounts _ _ (by decide) _ (by decide) (by decide) _ (by decide +kernel) (by decide +kernel),
    runCounts _ _ (by decide) _ (by decide) (by decide) _ (by decide +kernel) (by decide +kernel)⟩

/-- C126: a file divided inside a chunk loses the hits of that chunk behind the cut, although each part is read without complaint. -/
theorem c126_false_inside : RunCounts .gdc 4096 ((halves.take 5).flatMap bytesOf) [1] ∧
    RunCounts .gdc 4096 ((halves.take 4).flatMap bytesOf) [0] ∧ RunCounts .gdc 4096 (((halves.take 5).drop 4).flatMap bytesOf) [] :=
  ⟨runCounts _ _ (by decide) _ (by decide) (by decide) _ (by decide +kernel) (by decide +kernel),
    runCounts _ _ (by decide) _ (by decide) (by decide) _ (by decide +kernel) (by decide +kernel),
    runCounts _ _ (by decide) _ (by decide) (by decide) _ (by decide +kernel) (by decide +kernel)⟩

/-! ## The assumptions can be met -/

/-- Two files that date their own hits: the chunk with the times and two hits, and the chunks with the times again and a hit. -/
def datedA : List U64 := (damagedHit 0xB123000640000000#64).take 6
def datedB : List U64 := (damagedHit 0xB123000640000000#64).drop 6

theorem datesItself_one (n : Nat) (ws : List U64) (h0 : ws ≠ []) (hl : 8 * ws.length ≤ n) (lo hi tr : U64) (rest : List U64)
    (he : (announced ws).flatMap Chunk.packets = lo :: hi :: tr :: rest) (h1 : IsLowerHalf lo) (h2 : IsUpperHalf hi)
    (h3 : field hi 16 16 * 2 ^ 32 + field lo 16 32 ≠ 0) (h4 : IsTriggerPacket tr) : DatesItself n (ws.flatMap bytesOf) := by
  intro a h b e hh
  unfold packetsRead at e
  rw [fileChunks_one n ws h0 hl, he] at e
  have hlo : ¬ IsHitPacket lo := fun c => by
    have := h1.1
    unfold IsGlobalPacket IsHitPacket at *
    omega
  have hhi : ¬ IsHitPacket hi := fun c => by
    have := h2.1
    unfold IsGlobalPacket IsHitPacket at *
    omega
  match a, e with
  | [], e => injection e with e1 e2; exact absurd (e1 ▸ hh) hlo
  | [_], e => injection e with e1 e2; injection e2 with e2 e3; exact absurd (e2 ▸ hh) hhi
  | [_, _], e =>
    injection e with e1 e2; injection e2 with e2 e3; injection e3 with e3 e4
    exact absurd h4 (e3 ▸ hit_not_trigger hh)
  | u :: v :: w :: a, e =>
    injection e with e1 e2; injection e2 with e2 e3; injection e3 with e3 e4
    subst e1; subst e2; subst e3
    exact ⟨[], lo, [], hi, [], tr, a, rfl, h1, by simp, h2, h3, h4⟩

/-- `c126_gdc` and `c126_parts`: the two files and the whole. -/
example : AllDivided 4096 [datedA.flatMap bytesOf, datedB.flatMap bytesOf] ∧
    DatesItself 4096 (datedA.flatMap bytesOf) ∧ DatesItself 4096 (datedB.flatMap bytesOf) ∧
    RunCounts .gdc 4096 (datedA.flatMap bytesOf) [2] ∧ RunCounts .gdc 4096 (datedB.flatMap bytesOf) [0, 1] ∧
    RunCounts .gdc 4096 ([datedA.flatMap bytesOf, datedB.flatMap bytesOf].flatten) [2, 0, 1] := by
  refine ⟨⟨.inr ⟨by decide +kernel, ?_, by decide +kernel⟩, .inr ⟨by decide +kernel, ?_, by decide +kernel⟩, trivial⟩,
    datesItself_one _ _ (by decide) (by decide) 0x4400000000100000#64 0x4500000000000000#64 0x6F00000000014000#64
      [0xB123000640000000#64, 0xB000000600000000#64] (by decide +kernel) (by decide) (by decide) (by decide) (by decide),
    datesItself_one _ _ (by decide) (by decide) 0x4400000000110000#64 0x4500000000000000#64 0x6F00000000014000#64
      [0xB000000600000000#64] (by decide +kernel) (by decide) (by decide) (by decide) (by decide),
    runCounts _ _ (by decide) _ (by decide) (by decide) _ (by decide +kernel) (by decide +kernel),
    runCounts _ _ (by decide) _ (by decide) (by decide) _ (by decide +kernel) (by decide +kernel), ?_⟩
  · rw [wordsOf_flatMap]
    decide
  · rw [wordsOf_flatMap]
    decide
  · have e : [datedA.flatMap bytesOf, datedB.flatMap bytesOf].flatten = (damagedHit 0xB123000640000000#64).flatMap bytesOf := by
      decide +kernel
    rw [e]
    exact runCounts _ _ (by decide) _ (by decide) (by decide) _ (by decide +kernel) (by decide +kernel)

/-- A trigger and a hit, a chunk with a hit, and a chunk with a hit, a trigger and a hit. -/
def twoTriggers : List U64 := [0x0010000033585054#64, 0x6F00000000005000#64, 0xB123400000A00009#64, 0x0008000033585054#64, 0xB123400000A00009#64,
  0x0018000033585054#64, 0xB123400000A00009#64, 0x6F00000000006000#64, 0xB123400000A00009#64]

/-- `c126_tdc` (cut after the first chunk: the second part lacks two of its three hits) and `c126_untriggered` (the middle chunk). -/
example : Divided 4096 ((twoTriggers.take 3).flatMap bytesOf) ((twoTriggers.drop 3).flatMap bytesOf) ∧
    fileChunks 4096 ((twoTriggers.drop 3).flatMap bytesOf) = [⟨0x0008000033585054#64, [0xB123400000A00009#64]⟩] ++
      ⟨0x0018000033585054#64, [0xB123400000A00009#64] ++ 0x6F00000000006000#64 :: [0xB123400000A00009#64]⟩ :: [] ∧
    (timesT ⟨0, 0, 0⟩ (packetsRead 4096 ((twoTriggers.take 3).flatMap bytesOf))).tdc = 5 ∧
    RunCounts .tdc 4096 (twoTriggers.flatMap bytesOf) [1, 1, 2] ∧ RunCounts .tdc 4096 ((twoTriggers.take 3).flatMap bytesOf) [1] ∧
    RunCounts .tdc 4096 ((twoTriggers.drop 3).flatMap bytesOf) [0, 1] ∧
    RunCounts .tdc 4096 (((twoTriggers.drop 3).take 2).flatMap bytesOf) [0] := by
  refine ⟨.inr ⟨by decide +kernel, ?_, by decide +kernel⟩, ?_, ?_,
    runCounts _ _ (by decide) _ (by decide) (by decide) _ (by decide +kernel) (by decide +kernel),
    runCounts _ _ (by decide) _ (by decide) (by decide) _ (by decide +kernel) (by decide +kernel),
    runCounts _ _ (by decide) _ (by decide) (by decide) _ (by decide +kernel) (by decide +kernel),
    runCounts _ _ (by decide) _ (by decide) (by decide) _ (by decide +kernel) (by decide +kernel)⟩
  · rw [wordsOf_flatMap]
    decide
  · rw [fileChunks_one _ _ (by decide) (by decide)]
    decide +kernel
  · unfold packetsRead
    rw [fileChunks_one _ _ (by decide) (by decide)]
    decide +kernel

end Verif.Props
