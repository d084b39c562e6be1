import Verif.Props.CliMain
import Verif.Props.Interleaved

/-! # C84: every neutron of the stream becomes one event of the output -/

namespace Verif.Props

open Verif Verif.Spec

theorem perChunk_hits (m : Mode) (c : Clock) (hc : c.timer.toNat < 2 ^ 32) (cs : List Chunk) :
    perChunk m c cs = chunkHits m c.times cs := by
  induction cs generalizing c with
  | nil => rfl
  | cons k ks ih =>
    cases m with
    | gdc =>
      obtain ⟨r1, r2, r3⟩ := runGdc_spec (headerChipId k.header) k.packets c hc
      simp only [perChunk, chunkHits]
      rw [ih _ r2, r1, r3]
    | tdc =>
      obtain ⟨r1, r3⟩ := runTdc_spec (headerChipId k.header) k.packets c
      have ht : (runPackets .tdc true (headerChipId k.header) k.packets c).1.timer.toNat < 2 ^ 32 := by
        have := congrArg Times.low r1
        have hl : ∀ ws t, (timesT t ws).low = t.low := by
          intro ws
          induction ws with
          | nil => intro t; rfl
          | cons w ws ih2 =>
            intro t
            rw [timesT_cons, ih2]
            unfold nextT
            split_ifs <;> rfl
        rw [hl] at this
        simp only [Clock.times] at this
        omega
      simp only [perChunk, chunkHits]
      rw [ih _ ht, r1, r3]

/-- The batches of a run over a well-formed stream cut between its chunks are the chunks. -/
theorem cliRun_chunks (x : CliCtx) (n : Nat) (hn0 : 0 < n) (cs : List Chunk) (hcs : cs ≠ [])
    (hw : ∀ k ∈ cs, k.WellFormed) (hn : ∀ k ∈ cs, k.NoLookAlike)
    (hcut : ∀ j, j * n < (streamBytes cs).length → ∃ k, j * n = (streamBytes (cs.take k)).length)
    (fuel : Nat) (bs : List EventBatch) (c : Clock) (h : cliRun x n fuel (streamBytes cs) = .ok (some (bs, c))) :
    bs.map (fun b => b.batch.hits) = chunkHits x.mode ⟨0, 0, 0⟩ cs := by
  have h' := cliRun_mono x n fuel ((streamBytes cs).length + 1) _ _ h
  have hb := c22_boundaries_partial x n hn0 cs hcs hw hn hcut (fuel + ((streamBytes cs).length + 1)) (by omega)
  rw [chunk_stream x cs Clock.zero hw hn, h'] at hb
  simp only [runOutput, Res.bind, Option.map_some] at hb
  cases he : evAll x (perChunk x.mode Clock.zero cs) with
  | ub u => rw [he] at hb; simp at hb
  | throws m => rw [he] at hb; simp at hb
  | ok v =>
    rw [he] at hb
    simp only [Res.ok.injEq, Option.some.injEq, Prod.mk.injEq] at hb
    obtain ⟨e1, -⟩ := evAll_fst x _ v he
    rw [← hb.1] at e1
    rw [show (⟨0, 0, 0⟩ : Times) = Clock.zero.times from rfl, ← perChunk_hits x.mode Clock.zero (by decide), ← e1, outputOf,
      List.map_map]
    rfl

/-- The events of one batch. -/
theorem eventsOf_visible (x : CliCtx) (hs : List Hit) (es : List Neutron) (h : eventsOf x hs = .ok es) (r : ℚ)
    (hp : x.params.feature = .fin r) (hr : |r| ≤ 2 ^ 20) (hrange : x.params.range < 2 ^ 64)
    (ht : ∀ h ∈ hs, h.spidertime.toNat < 2 ^ 48) (hd : ∀ h ∈ hs, Decoded h) (hsize : hs.length ≤ 2 ^ 31)
    (ns : List Int) (hres : Resolved x.params.range r hs ns) :
    List.Forall₂ (IsEventOf 1) (visible x.params.minSize hs ns) es := by
  unfold eventsOf at h
  cases hf : (AbsObj.new x.params).fit hs with
  | ub u => rw [hf] at h; simp [bind, Res.bind] at h
  | throws m => rw [hf] at h; simp [bind, Res.bind] at h
  | ok a =>
    rw [hf] at h
    simp only [bind, Res.bind] at h
    have hpos : ∀ h ∈ hs, |h.x| ≤ 2 ^ 20 ∧ |h.y| ≤ 2 ^ 20 := by
      intro g hg
      have hd' := hd g hg
      rw [abs_of_nonneg hd'.x.1, abs_of_nonneg hd'.y.1]
      have := hd'.x.2
      have := hd'.y.2
      omega
    have hl := c83_interleaved (AbsObj.new x.params) a hs hf r hp hr hrange ht hpos ns hres.length hres.numbered
      hres.coherent hres.apart
    obtain ⟨k, es', hk, he, hes⟩ := c31_events x.solve (AbsObj.new x.params) a hs hf rfl hd hsize
    rw [h] at he
    injection he with he
    subst he
    have hk' : ∀ l : Int, l ∈ ns.toFinset ↔ l ∈ Finset.Ico (0 : Int) k := by
      intro l
      rw [List.mem_toFinset, ← hl, hk, Finset.mem_Ico]
    have hcard : ns.toFinset.card = k := by
      rw [Finset.ext hk', Int.card_Ico]
      omega
    rw [hl] at hes
    unfold visible
    rw [hcard, List.filter_map, List.forall₂_map_left_iff]
    exact hes

theorem forall₂_flatten {α β : Type} {R : α → β → Prop} {as : List (List α)} {bs : List (List β)}
    (h : List.Forall₂ (List.Forall₂ R) as bs) : List.Forall₂ R as.flatten bs.flatten := by
  induction h with
  | nil => exact .nil
  | cons h1 _ ih =>
    rw [List.flatten_cons, List.flatten_cons]
    exact List.rel_append h1 ih

/-- The events of a run, from the hits of its batches. -/
theorem neutrons_of_run (x : CliCtx) (n fuel : Nat) (file : Bytes) (bs : List EventBatch) (c : Clock)
    (hrun : cliRun x n fuel file = .ok (some (bs, c))) (H : List (List Hit)) (hch : bs.map (fun b => b.batch.hits) = H)
    (r : ℚ) (hp : x.params.feature = .fin r) (hr : |r| ≤ 2 ^ 20) (hrange : x.params.range < 2 ^ 64)
    (hg : x.mode = .gdc → ∀ hs ∈ H, ∀ g ∈ hs, g.spidertime.toNat < 2 ^ 48)
    (ht : x.mode = .tdc → ∀ hs ∈ H, ∀ g ∈ hs, ∃ t, g.tof = some t ∧ t.toNat < 2 ^ 22)
    (neutron : List (List Int)) (hres : List.Forall₂ (Resolved x.params.range r) H neutron) :
    List.Forall₂ (IsEventOf 1) (List.zipWith (visible x.params.minSize) H neutron).flatten (neutronsOf bs) := by
  have hfrom := cliRun_batches _ _ _ _ _ _ hrun
  clear hrun
  rw [neutronsOf, List.flatMap_def]
  apply forall₂_flatten
  have hall : ∀ hs ∈ H, ∀ g ∈ hs, g.spidertime.toNat < 2 ^ 48 ∨ x.mode = .tdc := by
    intro hs hhs g hx
    cases hm : x.mode with
    | gdc => exact Or.inl (hg hm hs hhs g hx)
    | tdc => exact Or.inr rfl
  have hall2 : ∀ hs ∈ H, ∀ g ∈ hs, x.mode = .gdc ∨ ∃ t, g.tof = some t ∧ t.toNat < 2 ^ 22 := by
    intro hs hhs g hx
    cases hm : x.mode with
    | gdc => exact Or.inl rfl
    | tdc => exact Or.inr (ht hm hs hhs g hx)
  rw [← hch] at hres hall hall2 ⊢
  clear hch hg ht
  induction bs generalizing neutron with
  | nil =>
    cases hres
    exact .nil
  | cons b bs ih =>
    rw [List.map_cons] at hres
    cases hres with
    | cons h1 h2 =>
      rw [List.map_cons, List.map_cons, List.zipWith_cons_cons]
      refine .cons ?_ (ih _ h2 (fun b' hb => hfrom b' (by simp [hb])) (fun hs hh => hall hs (by simp at hh ⊢; tauto))
        (fun hs hh => hall2 hs (by simp at hh ⊢; tauto)))
      obtain ⟨⟨chip, ws, c0, hwl, he⟩, hev⟩ := hfrom b (by simp)
      have hsz := (runPackets_hits x.mode chip ws c0).1
      refine eventsOf_visible _ _ _ hev r hp hr hrange ?_ ?_ ?_ _ h1
      · intro g hx
        rcases hall b.batch.hits (by simp) g hx with h | h
        · exact h
        · rw [he] at hx
          obtain ⟨w, tdc, gdc, hw⟩ := (runPackets_hits x.mode chip ws c0).2 g hx
          have := (hit_ranges x.mode g chip w tdc gdc hw).2.2.2.2.2 h
          omega
      · intro g hx
        have h2 := hall2 b.batch.hits (by simp) g hx
        rw [he] at hx
        obtain ⟨w, tdc, gdc, hw⟩ := (runPackets_hits x.mode chip ws c0).2 g hx
        obtain ⟨r1, r2, r3, -⟩ := hit_ranges x.mode g chip w tdc gdc hw
        refine ⟨by omega, by omega, by omega, ?_⟩
        rcases h2 with h2 | h2
        · rcases hw with ⟨-, rfl⟩ | ⟨hm, -⟩
          · obtain ⟨t, ht1, ht2⟩ := c05_bounded w tdc gdc chip
            exact ⟨t, ht1, by omega⟩
          · rw [h2] at hm; simp at hm
        · exact h2
      · have := congrArg List.length he
        omega

/-- The events in the output of a run, from the hits of its batches. -/
theorem events_of_run (o : ProgramOptions) (s : Settings) (solve : List GaussRow → F64 × F64) (fuel : Nat) (file : Bytes)
    (H : List (List Hit))
    (hH : ∀ bs c, cliRun ⟨o.mode, s.params, solve⟩ o.chunkSize fuel file = .ok (some (bs, c)) →
      bs.map (fun b => b.batch.hits) = H)
    (w : Outputs) (h : mainCore o s solve (fun _ => {}) fuel file = .ok (.finished w))
    (r : ℚ) (hp : s.params.feature = .fin r) (hr : |r| ≤ 2 ^ 20) (hrange : s.params.range < 2 ^ 64)
    (hg : o.mode = .gdc → ∀ hs ∈ H, ∀ x ∈ hs, x.spidertime.toNat < 2 ^ 48)
    (ht : o.mode = .tdc → ∀ hs ∈ H, ∀ x ∈ hs, ∃ t, x.tof = some t ∧ t.toNat < 2 ^ 22)
    (neutron : List (List Int)) (hres : List.Forall₂ (Resolved s.params.range r) H neutron) :
    ∃ es : List Neutron,
      List.Forall₂ (IsEventOf 1) (List.zipWith (visible s.params.minSize) H neutron).flatten es ∧
      w.totalNeutrons.toNat = es.length % 2 ^ 64 ∧
      (o.outEvents ≠ [] → (es = [] → w.events = []) ∧ (es ≠ [] →
        ∀ v ∈ neutronAttrs, column w.events "neutrons".toList v.1 = some (es.map v.2))) := by
  obtain ⟨bs, c, hrun, -, hev, -, -, htot⟩ := c74_agree_partial o s solve fuel _ w h
  exact ⟨neutronsOf bs, neutrons_of_run ⟨o.mode, s.params, solve⟩ _ _ _ bs c hrun H (hH bs c hrun) r hp hr hrange hg ht neutron hres, htot, hev⟩

/-- C84: for a well-formed stream whose chunks the reader does not cut, and an assignment of the hits of every chunk to
neutrons that can be recovered (`Resolved`), a run that ends normally has written one event for every visible neutron and
no other: the number of its hits, the mean of their positions weighted with the time over threshold, the sum of these and the
mean time of flight.  Missing: streams cut inside a chunk (see `c84_cut_partial`); neutrons with hits in two chunks, for which it is false
(`c84_false_split`). -/
theorem c84_events_partial (o : ProgramOptions) (s : Settings) (solve : List GaussRow → F64 × F64) (fuel : Nat)
    (cs : List Chunk) (hcs : cs ≠ []) (hw : ∀ k ∈ cs, k.WellFormed) (hn : ∀ k ∈ cs, k.NoLookAlike) (hn0 : 0 < o.chunkSize)
    (hcut : ∀ j, j * o.chunkSize < (streamBytes cs).length → ∃ k, j * o.chunkSize = (streamBytes (cs.take k)).length)
    (w : Outputs) (h : mainCore o s solve (fun _ => {}) fuel (streamBytes cs) = .ok (.finished w))
    (r : ℚ) (hp : s.params.feature = .fin r) (hr : |r| ≤ 2 ^ 20) (hrange : s.params.range < 2 ^ 64)
    (hg : o.mode = .gdc → ∀ hs ∈ chunkHits .gdc ⟨0, 0, 0⟩ cs, ∀ x ∈ hs, x.spidertime.toNat < 2 ^ 48)
    (ht : o.mode = .tdc → ∀ hs ∈ chunkHits .tdc ⟨0, 0, 0⟩ cs, ∀ x ∈ hs, ∃ t, x.tof = some t ∧ t.toNat < 2 ^ 22)
    (neutron : List (List Int)) (hres : List.Forall₂ (Resolved s.params.range r) (chunkHits o.mode ⟨0, 0, 0⟩ cs) neutron) :
    ∃ es : List Neutron,
      List.Forall₂ (IsEventOf 1)
        (List.zipWith (visible s.params.minSize) (chunkHits o.mode ⟨0, 0, 0⟩ cs) neutron).flatten es ∧
      w.totalNeutrons.toNat = es.length % 2 ^ 64 ∧
      (o.outEvents ≠ [] → (es = [] → w.events = []) ∧ (es ≠ [] →
        ∀ v ∈ neutronAttrs, column w.events "neutrons".toList v.1 = some (es.map v.2))) := by
  exact events_of_run o s solve fuel _ _
    (fun bs c hrun => cliRun_chunks ⟨o.mode, s.params, solve⟩ _ hn0 cs hcs hw hn hcut fuel bs c hrun) w h r hp hr hrange
    (fun hm hs hh => hg hm hs (hm ▸ hh)) (fun hm hs hh => ht hm hs (hm ▸ hh)) neutron hres

/-- A hit packet with the given pixel address and arrival time, time over threshold 10. -/
def exPacket (pixel toa : Nat) : U64 := BitVec.ofNat 64 (0xB * 2 ^ 60 + pixel * 2 ^ 44 + toa * 2 ^ 30 + 10 * 2 ^ 20)

/-- A trigger, then two neutrons of two hits each, interleaved. -/
def exStream : List Chunk :=
  [⟨0x0028000033585054#64, [0x6F00000000005000#64, exPacket 0x1234 10, exPacket 0x8234 10, exPacket 0x1235 11, exPacket 0x8235 11]⟩]

/-- Decidable form of `Resolved`. -/
theorem resolved_of {range : Nat} {r : ℚ} {hits : List Hit} {neutron : List Int}
    (h : neutron.length = hits.length ∧ Numbered neutron ∧ Coherent range r 7 hits neutron ∧
      NeutronsApart range (r + 1 / 2 ^ 32) hits neutron) : Resolved range r hits neutron := ⟨h.1, h.2.1, h.2.2.1, h.2.2.2⟩

example : exStream ≠ [] ∧ (∀ k ∈ exStream, k.WellFormed) ∧ (∀ k ∈ exStream, k.NoLookAlike) ∧
    (streamBytes exStream).length ≤ hitsAndEvents.chunkSize ∧ hitsAndEvents.mode = .tdc ∧
    (∀ hs ∈ chunkHits .tdc ⟨0, 0, 0⟩ exStream, ∀ x ∈ hs, ∃ t, x.tof = some t ∧ t.toNat < 2 ^ 22) ∧
    List.Forall₂ (Resolved 75 5) (chunkHits .tdc ⟨0, 0, 0⟩ exStream) [[0, 1, 0, 1]] ∧
    (List.zipWith (visible 1) (chunkHits .tdc ⟨0, 0, 0⟩ exStream) [[0, 1, 0, 1]]).flatten.map (List.map Hit.y) =
      [[24, 25], [24, 25]] := by
  refine ⟨by decide, by decide, ?_, by decide +kernel, by decide, ?_, .cons (resolved_of (by decide +kernel)) .nil, by decide +kernel⟩
  · intro k hk w hw
    simp only [exStream, List.mem_singleton] at hk
    subst hk
    simp only [List.mem_cons, List.not_mem_nil, or_false] at hw
    rcases hw with rfl | rfl | rfl | rfl | rfl <;> decide
  have h : ∀ hs ∈ chunkHits .tdc ⟨0, 0, 0⟩ exStream, ∀ x ∈ hs, x.tof ≠ none ∧ (x.tof.getD 0).toNat < 2 ^ 22 := by decide +kernel
  intro hs hh x hx
  obtain ⟨h1, h2⟩ := h hs hh x hx
  obtain ⟨t, ht⟩ := Option.ne_none_iff_exists'.mp h1
  rw [ht] at h2
  exact ⟨t, ht, h2⟩

/-- C84 is false for a neutron with hits in two chunks: in one chunk the two hits are one event of two hits, in two chunks
they are two events. -/
theorem c84_false_split :
    (∃ w, mainCore hitsAndEvents plainSettings (fun _ => (.nan, .nan)) (fun _ => {}) 2
        (streamBytes [⟨0x0018000033585054#64, [0x6F00000000005000#64, exPacket 0x1234 10, exPacket 0x1235 11]⟩]) =
          .ok (.finished w) ∧ w.totalNeutrons = 1#64 ∧
        column w.events "neutrons".toList "nHits".toList = some [.fin 2]) ∧
    (∃ w, mainCore hitsAndEvents plainSettings (fun _ => (.nan, .nan)) (fun _ => {}) 2
        (streamBytes [⟨0x0010000033585054#64, [0x6F00000000005000#64, exPacket 0x1234 10]⟩,
          ⟨0x0008000033585054#64, [exPacket 0x1235 11]⟩]) = .ok (.finished w) ∧ w.totalNeutrons = 2#64 ∧
        column w.events "neutrons".toList "nHits".toList = some [.fin 1, .fin 1]) :=
  ⟨finished_of (P := fun w => w.totalNeutrons = 1#64 ∧
      column w.events "neutrons".toList "nHits".toList = some [.fin 2]) _ (by decide +kernel),
   finished_of (P := fun w => w.totalNeutrons = 2#64 ∧
      column w.events "neutrons".toList "nHits".toList = some [.fin 1, .fin 1]) _ (by decide +kernel)⟩

end Verif.Props
