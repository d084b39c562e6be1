import Verif.Spec.Lossless
import Verif.Props.Damage
import Verif.Props.AnyRun
import Verif.Props.Reference

/-!
# C123: the file of hits tells every hit packet
-/

namespace Verif.Props

open Verif Verif.Spec

/-- The hit is decoded from the packet of the chip, with some times. -/
def HitOf (m : Mode) (p : Int × U64) (h : Hit) : Prop :=
  IsHitPacket p.2 ∧ ∃ tdc gdc : U64, h = match m with | .gdc => hitGdc p.2 tdc gdc p.1 | .tdc => hitTdc p.2 tdc p.1

theorem hitOf_columns {m : Mode} {p : Int × U64} {h : Hit} (hp : HitOf m p h) :
    ∃ tdc gdc : U64, h.x = (hitGdc p.2 tdc gdc p.1).x ∧ h.y = (hitGdc p.2 tdc gdc p.1).y ∧ h.tot = field p.2 20 10 ∧ h.ftoa = field p.2 16 4 ∧
      h.spidertime.toNat % 2 ^ 30 = clock30 p.2 := by
  obtain ⟨-, tdc, gdc, rfl⟩ := hp
  refine ⟨tdc, gdc, ?_⟩
  have h1 := c80_hit p.2 tdc gdc p.1
  cases m with
  | gdc => exact ⟨rfl, rfl, by rw [show (hitGdc p.2 tdc gdc p.1).tot = decTot p.2 from rfl, decTot_eq]; rfl,
      by rw [show (hitGdc p.2 tdc gdc p.1).ftoa = decFtoa p.2 from rfl, decFtoa_eq]; rfl, (h1 _ (by simp)).2.1⟩
  | tdc => exact ⟨rfl, rfl, by rw [show (hitTdc p.2 tdc p.1).tot = decTot p.2 from rfl, decTot_eq]; rfl,
      by rw [show (hitTdc p.2 tdc p.1).ftoa = decFtoa p.2 from rfl, decFtoa_eq]; rfl, (h1 _ (by simp)).2.1⟩

theorem word_fields (w : U64) : w.toNat = field w 0 16 + 2 ^ 16 * field w 16 4 + 2 ^ 20 * field w 20 10 + 2 ^ 30 * field w 30 14 +
    2 ^ 44 * field w 44 16 + 2 ^ 60 * field w 60 4 := by
  have h := w.isLt
  unfold field
  generalize w.toNat = n at *
  have h1 : n / 2 ^ 20 = n / 2 ^ 16 / 2 ^ 4 := by rw [Nat.div_div_eq_div_mul, ← Nat.pow_add]
  have h2 : n / 2 ^ 30 = n / 2 ^ 20 / 2 ^ 10 := by rw [Nat.div_div_eq_div_mul, ← Nat.pow_add]
  have h3 : n / 2 ^ 44 = n / 2 ^ 30 / 2 ^ 14 := by rw [Nat.div_div_eq_div_mul, ← Nat.pow_add]
  have h4 : n / 2 ^ 60 = n / 2 ^ 44 / 2 ^ 16 := by rw [Nat.div_div_eq_div_mul, ← Nat.pow_add]
  have h5 : n / 2 ^ 60 % 2 ^ 4 = n / 2 ^ 60 := Nat.mod_eq_of_lt (by omega)
  have g1 := Nat.div_add_mod n (2 ^ 16)
  have g2 := Nat.div_add_mod (n / 2 ^ 16) (2 ^ 4)
  have g3 := Nat.div_add_mod (n / 2 ^ 20) (2 ^ 10)
  have g4 := Nat.div_add_mod (n / 2 ^ 30) (2 ^ 14)
  have g5 := Nat.div_add_mod (n / 2 ^ 44) (2 ^ 16)
  rw [← h1] at g2
  rw [← h2] at g3
  rw [← h3] at g4
  rw [← h4] at g5
  rw [h5, Nat.pow_zero, Nat.div_one]
  generalize n / 2 ^ 20 = a at *
  generalize n / 2 ^ 30 = b at *
  generalize n / 2 ^ 44 = c at *
  generalize n / 2 ^ 60 = d at *
  generalize n / 2 ^ 16 = e at *
  generalize n % 2 ^ 16 = r1 at *
  generalize e % 2 ^ 4 = r2 at *
  generalize a % 2 ^ 10 = r3 at *
  generalize b % 2 ^ 14 = r4 at *
  generalize c % 2 ^ 16 = r5 at *
  omega

/-- C123 for one hit: position, time over threshold, fine time and the time of arrival, whatever the times it was dated with, tell the
chip and all 64 bits of the packet. -/
theorem c123_packet (m m' : Mode) (p p' : Int × U64) (h h' : Hit) (hp : HitOf m p h) (hp' : HitOf m' p' h') (hc : 0 ≤ p.1 ∧ p.1 ≤ 3)
    (hc' : 0 ≤ p'.1 ∧ p'.1 ≤ 3) (ex : h.x = h'.x) (ey : h.y = h'.y) (et : h.tot = h'.tot) (ef : h.ftoa = h'.ftoa)
    (es : h.spidertime.toNat % 2 ^ 30 = h'.spidertime.toNat % 2 ^ 30) : p = p' := by
  have k := hp.1
  have k' := hp'.1
  obtain ⟨tdc, gdc, x1, y1, t1, f1, s1⟩ := hitOf_columns hp
  obtain ⟨tdc', gdc', x2, y2, t2, f2, s2⟩ := hitOf_columns hp'
  have hpos := (c02_injective p.2 p'.2 tdc tdc' gdc gdc' p.1 p'.1 hc hc').mp (by rw [← x1, ← y1, ← x2, ← y2, ex, ey])
  refine Prod.ext hpos.1 ?_
  apply BitVec.eq_of_toNat_eq
  have e1 : field p.2 20 10 = field p'.2 20 10 := by omega
  have e2 : field p.2 16 4 = field p'.2 16 4 := by omega
  have e3 : clock30 p.2 = clock30 p'.2 := by omega
  have e4 := hpos.2
  unfold IsHitPacket kind at k k'
  have l : field p.2 30 14 < 2 ^ 14 := Nat.mod_lt _ (by norm_num)
  have l' : field p'.2 30 14 < 2 ^ 14 := Nat.mod_lt _ (by norm_num)
  unfold clock30 at e3
  have e5 : field p.2 30 14 = field p'.2 30 14 := by omega
  have e6 : field p.2 0 16 = field p'.2 0 16 := by omega
  rw [word_fields p.2, word_fields p'.2, e1, e2, e4, e5, e6, k, k']

theorem dated_hitsOf (m : Mode) (t : Times) (ps : List (Int × U64)) : List.Forall₂ (HitOf m) (datedPackets m t ps) (onePass m t ps) := by
  induction ps generalizing t with
  | nil => cases m <;> exact List.Forall₂.nil
  | cons p ps ih =>
    cases m with
    | gdc =>
      show List.Forall₂ _ (datedPackets .gdc t (p :: ps)) (passG t (p :: ps))
      rw [datedPackets, passG]
      refine List.rel_append ?_ (ih _)
      by_cases h : IsHitPacket p.2 ∧ t.tdc ≠ 0 ∧ t.gdc ≠ 0
      · rw [if_pos ⟨h.1, h.2.1, fun _ => h.2.2⟩, if_pos h]
        exact .cons ⟨h.1, _, _, rfl⟩ .nil
      · rw [if_neg fun g => h ⟨g.1, g.2.1, g.2.2 rfl⟩, if_neg h]
        exact .nil
    | tdc =>
      show List.Forall₂ _ (datedPackets .tdc t (p :: ps)) (passT t (p :: ps))
      rw [datedPackets, passT]
      refine List.rel_append ?_ (ih _)
      by_cases h : IsHitPacket p.2 ∧ t.tdc ≠ 0
      · rw [if_pos ⟨h.1, h.2, fun e => by cases e⟩, if_pos h]
        exact .cons ⟨h.1, _, 0, rfl⟩ .nil
      · rw [if_neg fun g => h ⟨g.1, g.2.1⟩, if_neg h]
        exact .nil

theorem dated_chip (m : Mode) (t : Times) (ps : List (Int × U64)) : ∀ p ∈ datedPackets m t ps, p ∈ ps := by
  induction ps generalizing t with
  | nil => simp [datedPackets]
  | cons q ps ih =>
    intro p hp
    obtain ⟨t', hp⟩ : ∃ t', p ∈ (if IsHitPacket q.2 ∧ t.tdc ≠ 0 ∧ (m = .gdc → t.gdc ≠ 0) then [q] else []) ++ datedPackets m t' ps := by
      cases m <;> exact ⟨_, hp⟩
    rw [List.mem_append] at hp
    rcases hp with hp | hp
    · split_ifs at hp
      · rw [List.mem_singleton] at hp
        simp [hp]
      · simp at hp
    · exact List.mem_cons_of_mem _ (ih _ p hp)

theorem chunk_pass (m : Mode) (t : Times) (cs : List Chunk) : (chunkHits m t cs).flatten = onePass m t (chipPackets cs) := by
  induction cs generalizing t with
  | nil => cases m <;> rfl
  | cons k cs ih =>
    rw [chunkHits_cons, List.flatten_cons, ih]
    cases m with
    | gdc => exact (passG_append t (headerChipId k.header) k.packets _).symm
    | tdc => exact (passT_append t (headerChipId k.header) k.packets _).symm

/-- Hits that agree in all columns. -/
theorem same_packets (m m' : Mode) (ps ps' : List (Int × U64)) (hs hs' : List Hit) (h : List.Forall₂ (HitOf m) ps hs)
    (h' : List.Forall₂ (HitOf m') ps' hs') (hc : ∀ p ∈ ps, 0 ≤ p.1 ∧ p.1 ≤ 3) (hc' : ∀ p ∈ ps', 0 ≤ p.1 ∧ p.1 ≤ 3)
    (he : ∀ v ∈ hitAttrs, hs.map v.2 = hs'.map v.2) : ps = ps' := by
  induction h generalizing ps' hs' with
  | nil =>
    cases h' with
    | nil => rfl
    | cons _ _ =>
      have := he _ (List.mem_cons_self ..)
      simp at this
  | @cons p a ps hs hp hps ih =>
    cases h' with
    | nil =>
      have := he _ (List.mem_cons_self ..)
      simp at this
    | @cons p' a' ps' hs' hp' hps' =>
      have hv : ∀ v ∈ hitAttrs, v.2 a = v.2 a' ∧ hs.map v.2 = hs'.map v.2 := fun v hv => by
        have := he v hv
        rw [List.map_cons, List.map_cons, List.cons.injEq] at this
        exact this
      have e := ih ps' hs' hps' (fun p hp => hc p (by simp [hp])) (fun p hp => hc' p (by simp [hp])) fun v h => (hv v h).2
      have e1 : p = p' := by
        simp only [hitAttrs, List.forall_mem_cons] at hv
        obtain ⟨⟨v1, -⟩, ⟨v2, -⟩, ⟨v3, -⟩, -, ⟨v5, -⟩, -, ⟨v7, -⟩, -⟩ := hv
        refine c123_packet m m' p p' a a' hp hp' (hc p (by simp)) (hc' p' (by simp)) (by exact_mod_cast v1) (by exact_mod_cast v2) ?_ ?_ ?_
        · have : (a.tot : ℚ) = a'.tot := by linarith
          exact_mod_cast this
        · have : (a.ftoa : ℚ) = a'.ftoa := by linarith
          exact_mod_cast this
        · have : (a.spidertime.toNat : ℚ) = a'.spidertime.toNat := by linarith
          have : a.spidertime.toNat = a'.spidertime.toNat := by exact_mod_cast this
          rw [this]
      rw [e, e1]

theorem run_columns (o : ProgramOptions) (s : Settings) (hr : s.params.range ≤ 2 ^ 62) (hn : 0 < o.chunkSize) (ho : o.outHits ≠ [])
    (solve : List GaussRow → F64 × F64) (fuel : Nat) (file : Bytes) (w : Outputs)
    (h : mainCore o s solve (fun _ => {}) fuel file = .ok (.finished w)) :
    (onePass o.mode ⟨0, 0, 0⟩ (chipPackets (fileChunks o.chunkSize file)) = [] → w.hits = []) ∧
    (onePass o.mode ⟨0, 0, 0⟩ (chipPackets (fileChunks o.chunkSize file)) ≠ [] → ∀ v ∈ hitAttrs, column w.hits "hits".toList v.1 =
      some ((onePass o.mode ⟨0, 0, 0⟩ (chipPackets (fileChunks o.chunkSize file))).map fun x => .fin (v.2 x))) := by
  obtain ⟨bs, c, hrun, hh, -⟩ := c74_agree_partial o s solve fuel file w h
  obtain ⟨-, h2, h3⟩ := c94_hits _ _ hn file fuel bs c hrun
  have e : hitsOf bs = onePass o.mode ⟨0, 0, 0⟩ (chipPackets (fileChunks o.chunkSize file)) := by
    rw [← chunk_pass, ← h2, hitsOf, List.flatMap_def]
  obtain ⟨-, g1, g2⟩ := hh ho
  rw [← e]
  refine ⟨g1, g2 fun _ x hx => ?_⟩
  rw [hitsOf, List.mem_flatMap] at hx
  obtain ⟨b, hb, hx⟩ := hx
  have hm : b.batch.hits ∈ chunkHits o.mode ⟨0, 0, 0⟩ (fileChunks o.chunkSize file) := by
    rw [← h2]
    exact List.mem_map_of_mem hb
  have hdich := fun y hy => chunkHits_dichotomy o.mode ⟨0, 0, 0⟩ goodTimes_zero _ _ hm y hy
  rcases hdich x hx with h5 | h5
  · exact h5
  · exfalso
    have h6 := eventsOf_misdated ⟨o.mode, s.params, solve⟩ hr b.batch.hits hdich ⟨x, hx, h5⟩
    rw [h3 b hb] at h6
    cases h6

/-- C123: if two files, of any bytes, are read by finished runs of the program and the files of hits have the same content, the dated hit
packets of the two files are the same, each bit and each chip, in the same order. -/
theorem c123_file (o o' : ProgramOptions) (s s' : Settings) (hr : s.params.range ≤ 2 ^ 62) (hr' : s'.params.range ≤ 2 ^ 62)
    (hn : 0 < o.chunkSize) (hn' : 0 < o'.chunkSize) (ho : o.outHits ≠ []) (ho' : o'.outHits ≠ []) (solve solve' : List GaussRow → F64 × F64)
    (fuel fuel' : Nat) (file file' : Bytes) (w w' : Outputs) (h : mainCore o s solve (fun _ => {}) fuel file = .ok (.finished w))
    (h' : mainCore o' s' solve' (fun _ => {}) fuel' file' = .ok (.finished w')) (hc : FourChips (fileChunks o.chunkSize file))
    (hc' : FourChips (fileChunks o'.chunkSize file')) (he : w.hits = w'.hits) :
    datedPackets o.mode ⟨0, 0, 0⟩ (chipPackets (fileChunks o.chunkSize file)) =
      datedPackets o'.mode ⟨0, 0, 0⟩ (chipPackets (fileChunks o'.chunkSize file')) := by
  obtain ⟨a1, a2⟩ := run_columns o s hr hn ho solve fuel file w h
  obtain ⟨b1, b2⟩ := run_columns o' s' hr' hn' ho' solve' fuel' file' w' h'
  have four : ∀ cs, FourChips cs → ∀ m t, ∀ p ∈ datedPackets m t (chipPackets cs), 0 ≤ p.1 ∧ p.1 ≤ 3 := by
    intro cs hcs m t p hp
    have := dated_chip m t _ p hp
    unfold chipPackets at this
    rw [List.mem_flatMap] at this
    obtain ⟨k, hk, hp⟩ := this
    rw [List.mem_map] at hp
    obtain ⟨w, -, rfl⟩ := hp
    exact hcs k hk
  refine same_packets o.mode o'.mode _ _ _ _ (dated_hitsOf _ _ _) (dated_hitsOf _ _ _) (four _ hc _ _) (four _ hc' _ _) fun v hv => ?_
  have hx : ∀ l l' : List Hit, (l.map fun x => F64.fin (v.2 x)) = (l'.map fun x => F64.fin (v.2 x)) → l.map v.2 = l'.map v.2 := by
    intro l
    induction l with
    | nil => intro l' h; cases l' with | nil => rfl | cons _ _ => simp at h
    | cons a l ih =>
      intro l' h
      cases l' with
      | nil => simp at h
      | cons b l' =>
        rw [List.map_cons, List.map_cons, List.cons.injEq, F64.fin.injEq] at h
        rw [List.map_cons, List.map_cons, h.1, ih l' h.2]
  have hnone : column ([] : H5) "hits".toList v.1 = none := rfl
  by_cases h1 : onePass o.mode ⟨0, 0, 0⟩ (chipPackets (fileChunks o.chunkSize file)) = []
  · by_cases h2 : onePass o'.mode ⟨0, 0, 0⟩ (chipPackets (fileChunks o'.chunkSize file')) = []
    · rw [h1, h2]
    · have := b2 h2 v hv
      rw [← he, a1 h1, hnone] at this
      cases this
  · by_cases h2 : onePass o'.mode ⟨0, 0, 0⟩ (chipPackets (fileChunks o'.chunkSize file')) = []
    · have := a2 h1 v hv
      rw [he, b1 h2, hnone] at this
      cases this
    · have e1 := a2 h1 v hv
      rw [he, b2 h2 v hv, Option.some.injEq] at e1
      exact (hx _ _ e1).symm

/-- C123 is false for other chips: a chip that is not one of the four gives the hits of chip 3. -/
theorem c123_false_chip (w tdc gdc : U64) (c : Int) (hc : c < 0 ∨ 3 < c) :
    hitGdc w tdc gdc c = hitGdc w tdc gdc 3 ∧ hitTdc w tdc c = hitTdc w tdc 3 := by
  have e : ∀ p, layoutXY c p = layoutXY 3 p := by
    intro p
    unfold layoutXY
    rw [if_neg (by omega), if_neg (by omega), if_neg (by omega)]
    rfl
  unfold hitGdc hitTdc
  simp only [e, and_self]

/-- The hit of `oneHit`, with a packet that is not read before it. -/
def oneHitMore : Bytes := streamBytes [⟨0x0018000033585054#64, [0x6F00000000005000#64, 0x7000000000000000#64, 0xB123400000A00009#64]⟩]

/-- The assumptions of `c123_file` are met by two files that differ. -/
example : oneHit ≠ oneHitMore ∧ FourChips (fileChunks hitsAndEvents.chunkSize oneHit) ∧
    FourChips (fileChunks hitsAndEvents.chunkSize oneHitMore) ∧
    datedPackets hitsAndEvents.mode ⟨0, 0, 0⟩ (chipPackets (fileChunks hitsAndEvents.chunkSize oneHit)) ≠ [] ∧
    ∃ w w', mainCore hitsAndEvents plainSettings (fun _ => (.nan, .nan)) (fun _ => {}) 2 oneHit = .ok (.finished w) ∧
      mainCore hitsAndEvents plainSettings (fun _ => (.nan, .nan)) (fun _ => {}) 2 oneHitMore = .ok (.finished w') ∧ w.hits = w'.hits := by
  refine ⟨by decide +kernel, ?_, ?_, by decide +kernel, ?_⟩
  · unfold FourChips
    decide +kernel
  · unfold FourChips
    decide +kernel
  · have h : (match mainCore hitsAndEvents plainSettings (fun _ => (.nan, .nan)) (fun _ => {}) 2 oneHit,
        mainCore hitsAndEvents plainSettings (fun _ => (.nan, .nan)) (fun _ => {}) 2 oneHitMore with
        | .ok (.finished w), .ok (.finished w') => decide (w.hits = w'.hits)
        | _, _ => false) = true := by decide +kernel
    split at h
    · rename_i w w' h1 h2
      exact ⟨w, w', h1, h2, of_decide_eq_true h⟩
    · cases h

/-- Two packets of different chips, dated by different clocks, that `c123_packet` tells apart. -/
example : HitOf .gdc (1, 0xB123400000A00009#64) (hitGdc 0xB123400000A00009#64 5 7 1) ∧
    HitOf .tdc (2, 0xB123400000A00009#64) (hitTdc 0xB123400000A00009#64 9 2) :=
  ⟨⟨by decide, 5, 7, rfl⟩, by decide, 9, 0, rfl⟩

end Verif.Props
