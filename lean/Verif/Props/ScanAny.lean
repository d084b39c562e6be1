import Verif.Spec.ScanAny
import Verif.Props.Cut

/-!
# C13 for buffers of any whole words
-/

namespace Verif.Props

open Verif Verif.Spec

theorem tagged_words (pre ws : List U64) :
    taggedPackets ((pre ++ ws).flatMap bytesOf) (scan ws (8 * pre.length)) = announcedPackets ws := by
  induction ws generalizing pre with
  | nil => rfl
  | cons w ws ih =>
    have e1 : pre ++ w :: ws = (pre ++ [w]) ++ ws := by simp
    have e2 : 8 * pre.length + 8 = 8 * (pre ++ [w]).length := by simp; omega
    have ih' := ih (pre ++ [w])
    rw [← e1, ← e2] at ih'
    unfold announcedPackets
    by_cases hw : StartsTPX w
    · rw [scan, if_pos ((isHeader_iff_starts w).mpr hw), if_pos hw, ← ih']
      unfold taggedPackets
      rw [List.flatMap_cons]
      congr 1
      rw [headerPackets_field, headerChip_eq]
      show (batchPackets _ (8 * pre.length) (field w 48 16 / 8)).map (headerChipId w, ·) = _
      rw [batchPackets_head]
    · rw [scan, if_neg (fun x => hw ((isHeader_iff_starts w).mp x)), if_neg hw, List.nil_append, ih']

theorem noOverrun_right {a b : List U64} (h : NoOverrun (a ++ b)) : NoOverrun b := by
  induction a with
  | nil => exact h
  | cons w a ih => exact ih h.2

/-- Without overruns, the words up to a header have the same packets alone. -/
theorem announced_split (a b : List U64) (h : U64) (hh : StartsTPX h) (hn : NoOverrun (a ++ h :: b)) :
    announcedPackets (a ++ h :: b) = announcedPackets a ++ announcedPackets (h :: b) := by
  induction a with
  | nil => rfl
  | cons w a ih =>
    have ih' := ih hn.2
    rw [List.cons_append]
    conv_lhs => rw [announcedPackets]
    conv_rhs => rw [announcedPackets]
    rw [ih', List.append_assoc]
    congr 1
    by_cases hw : StartsTPX w
    · rw [if_pos hw, if_pos hw]
      congr 1
      have hle : field w 48 16 / 8 ≤ a.length := by
        by_contra hlt
        refine hn.1 hw h ?_ hh
        show h ∈ (a ++ h :: b).take (field w 48 16 / 8)
        rw [List.take_append]
        refine List.mem_append_right _ ?_
        obtain ⟨k, hk⟩ : ∃ k, field w 48 16 / 8 - a.length = k + 1 := ⟨_, (Nat.succ_pred (by omega)).symm⟩
        rw [hk, List.take_succ_cons]
        exact List.mem_cons_self
      exact List.take_append_of_le_length hle
    · rw [if_neg hw, if_neg hw]

/-- Any whole words in one go. -/
theorem processBuffer_words (m : Mode) (ws : List U64) (c : Clock) (hc : c.timer.toNat < 2 ^ 32) :
    ∃ bs c', processBuffer m (ws.flatMap bytesOf) c = .ok (bs, c') ∧
      bs.flatMap Batch.hits = passM m c.times (announcedPackets ws) ∧
      c'.times = timesM m c.times ((announcedPackets ws).map Prod.snd) ∧ c'.timer.toNat < 2 ^ 32 := by
  obtain ⟨bs1, c1, bs2, h1, h2⟩ := c17_defined m (ws.flatMap bytesOf) (scan ws 0) c
    (by rw [length_flatMap_bytesOf]; omega) (fun b hb => (scan_aligned _ b hb).1)
  obtain ⟨g1, g2, g3⟩ := two_phase m _ _ _ _ c c1 hc (fun b hb => (scan_aligned _ b hb).2) h1 h2
  have ht := tagged_words [] ws
  rw [List.nil_append] at ht
  have ht' : taggedPackets (ws.flatMap bytesOf) (scan ws 0) = announcedPackets ws := ht
  rw [ht'] at g1 g2
  refine ⟨bs2, c1, ?_, g1, g2, g3⟩
  unfold processBuffer
  rw [findTPX3H_eq, wordsOf_flatMap]
  simp only [bind, Res.bind]
  rw [h1]
  simp only
  rw [h2]

/-- One round on the rest `ws` of the words: it takes all of them, or those before a header. -/
theorem round_words (m : Mode) (buf : Bytes) (o len : Nat) (ws : List U64) (c : Clock) (hlen : 2 ≤ len)
    (hc : c.timer.toNat < 2 ^ 32) (hrest : buf.drop o = ws.flatMap bytesOf) (hne : ws ≠ []) :
    ∃ a b bs c', ws = a ++ b ∧ a ≠ [] ∧ (b = [] ∨ ∃ h t, b = h :: t ∧ StartsTPX h) ∧
      limitedRound m buf len o c = .ok (bs, o + 8 * a.length, c') ∧
      bs.flatMap Batch.hits = passM m c.times (announcedPackets a) ∧
      c'.times = timesM m c.times ((announcedPackets a).map Prod.snd) ∧ c'.timer.toNat < 2 ^ 32 := by
  unfold limitedRound
  rw [findTPX3HLim_eq, hrest, wordsOf_flatMap]
  simp only [bind, Res.bind]
  rcases scanLim_cases len ws 0 0 (by omega) with ⟨e, hcnt⟩ | ⟨pre, h, post, hW, hh, hcnt, e⟩
  · obtain ⟨bs, c', hp, g1, g2, g3⟩ := processBuffer_words m ws c hc
    refine ⟨ws, [], bs, c', (List.append_nil _).symm, hne, Or.inl rfl, ?_, g1, g2, g3⟩
    rw [e, Nat.zero_add]
    have hl : 8 * ws.length = (ws.flatMap bytesOf).length := by rw [length_flatMap_bytesOf]
    rw [hl, List.take_length]
    unfold processBuffer at hp
    rw [findTPX3H_eq, wordsOf_flatMap] at hp
    simp only [bind, Res.bind] at hp
    cases hl : locate m (ws.flatMap bytesOf) (scan ws 0) c with
    | ok r =>
      rw [hl] at hp
      simp only at hp ⊢
      cases hx : extractAll m (ws.flatMap bytesOf) r.1 with
      | ok t =>
        rw [hx] at hp
        simp only [Res.ok.injEq, Prod.mk.injEq] at hp
        simp only [hp.1, hp.2]
      | throws e => rw [hx] at hp; simp at hp
      | ub u => rw [hx] at hp; simp at hp
    | throws e => rw [hl] at hp; simp at hp
    | ub u => rw [hl] at hp; simp at hp
  · have hpre : pre ≠ [] := by
      rintro rfl
      simp only [List.countP_nil] at hcnt
      omega
    have hsub : (ws.flatMap bytesOf).take (8 * pre.length) = pre.flatMap bytesOf := by
      rw [hW, List.flatMap_append, ← length_flatMap_bytesOf pre, List.take_left]
    rw [e, Nat.zero_add]
    simp only
    rw [hsub]
    obtain ⟨B, hB⟩ : ∃ B, B = Batch.new (8 * pre.length) (headerPackets h) (headerChip h) := ⟨_, rfl⟩
    have hB1 : B.index = (pre.flatMap bytesOf).length := by rw [hB, length_flatMap_bytesOf]; rfl
    have hB2 : B.hits = [] := by rw [hB]; rfl
    rw [← hB]
    have hal : ∀ b' ∈ scan pre 0 ++ [B], b'.index % 8 = 0 := by
      intro b' hb'
      rcases List.mem_append.mp hb' with hb' | hb'
      · exact (scan_aligned _ _ hb').1
      · rw [List.mem_singleton.mp hb', hB1, length_flatMap_bytesOf]; omega
    have hem : ∀ b' ∈ scan pre 0 ++ [B], b'.hits = [] := by
      intro b' hb'
      rcases List.mem_append.mp hb' with hb' | hb'
      · exact (scan_aligned _ _ hb').2
      · rw [List.mem_singleton.mp hb', hB2]
    obtain ⟨bs1, c1, bs2, h1, h2⟩ := c17_defined m (pre.flatMap bytesOf) (scan pre 0 ++ [B]) c
      (by rw [length_flatMap_bytesOf]; omega) hal
    obtain ⟨g1, g2, g3⟩ := two_phase m _ _ _ _ c c1 hc hem h1 h2
    have ht : taggedPackets (pre.flatMap bytesOf) (scan pre 0 ++ [B]) = announcedPackets pre := by
      have ht := tagged_words [] pre
      rw [List.nil_append] at ht
      have ht' : taggedPackets (pre.flatMap bytesOf) (scan pre 0) = announcedPackets pre := ht
      rw [← ht']
      unfold taggedPackets
      rw [List.flatMap_append, List.flatMap_cons, hB1, batchPackets_end]
      simp
    rw [ht] at g1 g2
    refine ⟨pre, h :: post, bs2, c1, hW, hpre, Or.inr ⟨h, post, rfl, hh⟩, ?_, g1, g2, g3⟩
    rw [h1]
    simp only
    rw [h2]

theorem limitedRun_words (m : Mode) (buf : Bytes) (len : Nat) (hlen : 2 ≤ len) (fuel : Nat) (o : Nat) (c : Clock)
    (hs : List Hit) (ws : List U64) (ho : o ≤ buf.length) (hc : c.timer.toNat < 2 ^ 32)
    (hrest : buf.drop o = ws.flatMap bytesOf) (hn : NoOverrun ws) (hfuel : ws.length ≤ fuel) :
    ∃ c', limitedRun m buf len fuel o c hs = .ok (some (hs ++ passM m c.times (announcedPackets ws), c')) ∧
      c'.times = timesM m c.times ((announcedPackets ws).map Prod.snd) := by
  have hlen0 : buf.length - o = 8 * ws.length := by rw [← length_flatMap_bytesOf, ← hrest, List.length_drop]
  have hnil : ∀ c : Clock, passM m c.times [] = [] ∧ timesM m c.times [] = c.times := by
    intro c
    cases m <;> exact ⟨rfl, rfl⟩
  induction fuel generalizing o c hs ws with
  | zero =>
    have hcs : ws = [] := List.eq_nil_of_length_eq_zero (by omega)
    subst hcs
    refine ⟨c, ?_, (hnil c).2.symm⟩
    simp only [List.length_nil] at hlen0
    rw [limitedRun, if_neg (by omega), announcedPackets, (hnil c).1, List.append_nil]
  | succ fuel ih =>
    rw [limitedRun]
    by_cases hcs : ws = []
    · subst hcs
      simp only [List.length_nil] at hlen0
      refine ⟨c, ?_, (hnil c).2.symm⟩
      rw [if_neg (by omega), announcedPackets, (hnil c).1, List.append_nil]
    · have hpos := List.length_pos_iff.mpr hcs
      rw [if_pos (by omega)]
      obtain ⟨a, b, bs, c', hab, ha, hb, hr, g1, g2, g3⟩ := round_words m buf o len ws c hlen hc hrest hcs
      have hap := List.length_pos_iff.mpr ha
      have hl := congrArg List.length hab
      rw [List.length_append] at hl
      rw [hr]
      have hpk : announcedPackets ws = announcedPackets a ++ announcedPackets b := by
        rcases hb with rfl | ⟨h, t, rfl, hh⟩
        · rw [hab, List.append_nil, announcedPackets, List.append_nil]
        · rw [hab, announced_split a t h hh (hab ▸ hn)]
      obtain ⟨c'', e, ht⟩ := ih (o + 8 * a.length) c' (hs ++ bs.flatMap Batch.hits) b
        (by omega) g3 (by rw [← List.drop_drop, hrest, hab, List.flatMap_append, ← length_flatMap_bytesOf a, List.drop_left])
        (noOverrun_right (hab ▸ hn)) (by omega) (by omega)
      refine ⟨c'', ?_, ?_⟩
      · simp only
        rw [e, g1, g2, hpk, passM_append, List.append_assoc]
      · rw [ht, g2, hpk, List.map_append, timesM_append]

theorem bytesOf_headWord (l : Bytes) (h : 8 ≤ l.length) : bytesOf (headWord l) = l.take 8 := by
  refine List.ext_getElem (by rw [bytesOf_length, List.length_take]; omega) fun k h1 h2 => ?_
  rw [bytesOf_length] at h1
  rw [List.getElem_take, ← byteOf_headWord l k h1 h]
  simp [bytesOf]

theorem bytes_words (n : Nat) (buf : Bytes) (h : buf.length = 8 * n) : buf = (wordsOf buf).flatMap bytesOf := by
  induction n generalizing buf with
  | zero =>
    rw [wordsOf_short buf (by omega)]
    exact List.eq_nil_of_length_eq_zero (by omega)
  | succ n ih =>
    have h8 : 8 ≤ buf.length := by omega
    rw [wordsOf_cons buf h8, List.flatMap_cons, bytesOf_headWord buf h8, ← ih (buf.drop 8) (by rw [List.length_drop]; omega),
      List.take_append_drop]

/-- C13, result for any bytes: on a buffer of whole words, whatever they are, in which no header announces packets beyond the next header,
the loop with a limit of at least two batches ends with the same hits in the same order and the same timestamps as processing the whole
buffer at once.  Together with `c13_terminates_iff` only overruns are left (`c13_false_overrun`). -/
theorem c13_same_hits_whole_partial (m : Mode) (buf : Bytes) (len : Nat) (c : Clock) (hlen : 2 ≤ len) (hc : c.timer.toNat < 2 ^ 32)
    (h8 : buf.length % 8 = 0) (hn : NoOverrun (wordsOf buf)) :
    ∃ bs c', processBuffer m buf c = .ok (bs, c') ∧
      ∀ fuel, buf.length / 8 ≤ fuel → limitedRun m buf len fuel 0 c [] = .ok (some (bs.flatMap Batch.hits, c')) := by
  have hb := bytes_words (buf.length / 8) buf (by omega)
  obtain ⟨bs, c', hp, g1, g2, _⟩ := processBuffer_words m (wordsOf buf) c hc
  rw [← hb] at hp
  refine ⟨bs, c', hp, fun fuel hf => ?_⟩
  obtain ⟨c'', e, ht⟩ := limitedRun_words m buf len hlen fuel 0 c [] (wordsOf buf) (Nat.zero_le _) hc hb hn
    (by rw [wordsOf_length]; exact hf)
  rw [e, g1, List.nil_append, clock_ext c'' c' (ht.trans g2.symm)]

/-- A trigger, a header that announces the next header as a packet, a hit. -/
def overrunWords : List U64 :=
  [0x0008000033585054#64, 0x6F00000000005000#64, 0x0010000033585054#64, 0x0008000033585054#64, 0xB000000000000000#64]

/-- C13 is false where a header announces packets beyond the next header: they are read twice at once, but only once in rounds. -/
theorem c13_false_overrun : ∃ buf : Bytes, buf.length % 8 = 0 ∧ ∃ bs c' hs c'', processBuffer .tdc buf Clock.zero = .ok (bs, c') ∧
    limitedRun .tdc buf 2 5 0 Clock.zero [] = .ok (some (hs, c'')) ∧ (bs.flatMap Batch.hits).length = 2 ∧ hs.length = 1 :=
  ⟨overrunWords.flatMap bytesOf, by decide, _, _, _, _, rfl, rfl, by decide +kernel, by decide +kernel⟩

/-- Words before the first header, fewer packets than words, and a chunk that is cut short at the end: two hits. -/
example : ∃ buf : Bytes, buf.length % 8 = 0 ∧ (∃ c', limitedRun .tdc buf 2 8 0 Clock.zero [] = .ok (some c') ∧ c'.1.length = 2) ∧
    NoOverrun (wordsOf buf) := by
  refine ⟨[0x123#64, 0x0010000033585054#64, 0x6F00000000005000#64, 0xB000000000000000#64, 0x456#64, 0x0020000233585054#64,
    0xB000000000000001#64, 0x789#64].flatMap bytesOf, by decide, ⟨_, rfl, by decide +kernel⟩, ?_⟩
  rw [wordsOf_flatMap]
  have e1 : field (0x0010000033585054#64) 48 16 / 8 = 2 := by decide
  have e2 : field (0x0020000233585054#64) 48 16 / 8 = 4 := by decide
  have hn : ∀ w : U64, field w 0 24 ≠ 0x585054 → ∀ l : List U64, StartsTPX w → ∀ v ∈ l, ¬ StartsTPX v := fun w h l h' => absurd h' h
  refine ⟨hn _ (by decide) _, fun _ => ?_, hn _ (by decide) _, hn _ (by decide) _, hn _ (by decide) _, fun _ => ?_, hn _ (by decide) _,
    hn _ (by decide) _, trivial⟩
  · rw [e1]
    simp only [List.take_succ_cons, List.take_zero, List.mem_cons, List.not_mem_nil, or_false]
    rintro v (rfl | rfl) <;> decide
  · rw [e2]
    simp only [List.take_succ_cons, List.take_nil, List.mem_cons, List.not_mem_nil, or_false]
    rintro v (rfl | rfl) <;> decide

end Verif.Props
