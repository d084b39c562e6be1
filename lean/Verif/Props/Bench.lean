import Verif.Model.Bench
import Verif.Props.EndToEnd
import Verif.Spec.Bench

/-! # The memory-mapped program (C85–C88) -/

namespace Verif.Props

open Verif Verif.Spec

/-! ## One body, many bodies -/

theorem fit_same (a a' : AbsObj) (hp : a.params = a'.params) (hm : a.method = a'.method) (data : List Hit) :
    (∃ r r', a.fit data = .ok r ∧ a'.fit data = .ok r' ∧ r.labels = r'.labels ∧ r.indices = r'.indices ∧
      r.params = r'.params ∧ r.method = r'.method ∧ r.params = a.params ∧ r.method = a.method) ∨
    (∃ u, a.fit data = .ub u ∧ a'.fit data = .ub u) ∨ ∃ e, a.fit data = .throws e ∧ a'.fit data = .throws e := by
  unfold AbsObj.fit AbsObj.fitWith
  simp only [AbsObj.resized, List.take_zero, List.nil_append, hp]
  generalize fitLoop a'.params 0 data _ = F
  cases F with
  | ok st =>
    simp only [bind, Res.bind]
    cases indexLoop 0 st.labels (List.replicate (st.maxLabel + 1).toNat []) with
    | ok idx => exact Or.inl ⟨_, _, rfl, rfl, rfl, rfl, rfl, hm, rfl, rfl⟩
    | throws e => exact Or.inr (Or.inr ⟨e, rfl, rfl⟩)
    | ub u => exact Or.inr (Or.inl ⟨u, rfl, rfl⟩)
  | throws e => exact Or.inr (Or.inr ⟨e, rfl, rfl⟩)
  | ub u => exact Or.inr (Or.inl ⟨u, rfl, rfl⟩)

theorem bodyLoop_eq (c : ProcCtx) (bs : List EventBatch) (alg : AbsObj) (hp : alg.params = c.params)
    (hm : alg.method = "centroid") : bodyLoop c alg bs = oneAll c bs := by
  induction bs generalizing alg with
  | nil => rfl
  | cons b bs ih =>
    simp only [bodyLoop, oneAll, ProcCtx.one, bind]
    cases extractHits c.mode c.chunk b.batch with
    | throws e => rfl
    | ub u => rfl
    | ok b' =>
      simp only [Res.bind]
      rcases fit_same alg.reset (AbsObj.new c.params) hp hm b'.hits with ⟨r, r', h1, h2, e1, e2, e3, e4, e5, e6⟩ |
        ⟨u, h1, h2⟩ | ⟨e, h1, h2⟩
      · rw [h1, h2]
        simp only
        rw [getEvents_congr (solve := c.solve) e3 e4 e1 e2 b'.hits]
        cases r'.getEvents c.solve b'.hits with
        | throws e => rfl
        | ub u => rfl
        | ok es =>
          simp only
          rw [ih r (e5.trans hp) (e6.trans hm)]
      · rw [h1, h2]
      · rw [h1, h2]

theorem oneAll_append (c : ProcCtx) (as bs : List EventBatch) :
    oneAll c (as ++ bs) = (oneAll c as).bind fun a => (oneAll c bs).bind fun b => .ok (a ++ b) := by
  induction as with
  | nil => cases h : oneAll c bs <;> simp [oneAll, Res.bind, h]
  | cons a as ih =>
    simp only [List.cons_append, oneAll, ih, bind]
    cases c.one a <;> simp only [Res.bind]
    cases oneAll c as <;> simp only
    cases oneAll c bs <;> simp

/-- However the range is cut, and whichever bodies are split off: the events in the order of the batches. -/
theorem reduceCut_eq (c : ProcCtx) (cut : Cut) (bs : List EventBatch) (out : List (List Neutron)) :
    reduceCut c cut bs out = (oneAll c bs).bind fun es => .ok (es, out ++ es.map fun e => e.neutrons) := by
  induction cut generalizing bs out with
  | whole =>
    simp only [reduceCut, bind]
    rw [bodyLoop_eq c bs _ rfl rfl]
  | halves forked k l r ihl ihr =>
    simp only [reduceCut, bind, ihl, ihr]
    conv_rhs => rw [← List.take_append_drop k bs, oneAll_append]
    cases oneAll c (bs.take k) with
    | throws e => rfl
    | ub u => rfl
    | ok as =>
      simp only [Res.bind]
      cases oneAll c (bs.drop k) with
      | throws e => cases forked <;> rfl
      | ub u => cases forked <;> rfl
      | ok bs' => cases forked <;> simp

/-! ## One round on a stream -/

/-- The hits of every chunk as the loop sees them. -/
def roundHits (tgdc : Bool) (c : Clock) (cs : List Chunk) : List (List Hit) :=
  if tgdc then perChunk .gdc c cs
  else cs.map fun k => (runPackets .gdc true (headerChipId k.header) k.packets Clock.zero).2

def roundClock (tgdc : Bool) (c : Clock) (cs : List Chunk) : Clock := if tgdc then clockAfter .gdc c cs else c

theorem roundHits_append (tgdc : Bool) (c : Clock) (as bs : List Chunk) :
    roundHits tgdc c (as ++ bs) = roundHits tgdc c as ++ roundHits tgdc (roundClock tgdc c as) bs ∧
    roundClock tgdc c (as ++ bs) = roundClock tgdc (roundClock tgdc c as) bs := by
  cases tgdc with
  | true => simp only [roundHits, roundClock, if_true]; exact perChunk_append .gdc c as bs
  | false => simp [roundHits, roundClock]

theorem alone_core (x : CliCtx) (hx : x.mode = .gdc) (pre : List U64) (cs : List Chunk)
    (hw : ∀ k ∈ cs, k.WellFormed) (hn : ∀ k ∈ cs, k.NoLookAlike) (buf : Bytes)
    (hbuf : buf = (pre ++ streamWords cs).flatMap bytesOf) (c : Clock) :
    (oneAll ⟨x.mode, buf, x.params, x.solve⟩ ((scan (streamWords cs) (8 * pre.length)).map fun b => ⟨b, []⟩)).bind
      (fun es => .ok (outputOf es)) = evAll x (roundHits false c cs) := by
  induction cs generalizing pre with
  | nil => rfl
  | cons k ks ih =>
    have e1 : pre ++ k.header :: (k.packets ++ streamWords ks) = (pre ++ k.header :: k.packets) ++ streamWords ks := by
      simp
    have e2 : 8 * pre.length + 8 + 8 * k.packets.length = 8 * (pre ++ k.header :: k.packets).length := by
      simp only [List.length_append, List.length_cons]; omega
    have i2 := ih (pre ++ k.header :: k.packets)
      (fun d hd => hw d (by simp [hd])) (fun d hd => hn d (by simp [hd])) (by rw [hbuf, streamWords_cons, e1])
    have hpk : batchPackets buf (8 * pre.length) k.packets.length = k.packets := by
      rw [hbuf, streamWords_cons]
      exact batchPackets_at pre k.packets (streamWords ks) k.header
    have hlen : buf.length % 8 = 0 := by rw [hbuf, length_flatMap_bytesOf]; omega
    have hp : ¬ reachesPartial buf (8 * pre.length) k.packets.length := by
      unfold reachesPartial; omega
    rw [streamWords_cons, scan_chunk _ _ _ (hw k (by simp)), scan_none _ _ (hn k (by simp)), List.nil_append, e2]
    obtain ⟨B, hB⟩ : ∃ B, B = chunkBatch (8 * pre.length) k := ⟨_, rfl⟩
    have f1 : B.index = 8 * pre.length ∧ B.numPackets = k.packets.length ∧ B.chip = headerChipId k.header ∧
        B.hits = [] ∧ B.clock = Clock.zero := by
      rw [hB]; exact ⟨rfl, rfl, rfl, rfl, rfl⟩
    rw [← hB]
    have h1 := one_eq x buf B (by rw [f1.1, f1.2.1]; exact hp) f1.2.2.2.1
    rw [f1.1, f1.2.1, f1.2.2.1, f1.2.2.2.2, hpk] at h1
    simp only [List.map_cons, oneAll, roundHits, evAll, bind, Bool.false_eq_true, if_false]
    simp only [roundHits, Bool.false_eq_true, if_false] at i2
    rw [← i2]
    rw [hx] at h1 ⊢
    revert h1
    generalize ProcCtx.one _ _ = A
    generalize eventsOf x _ = B
    generalize oneAll _ _ = C
    intro h1
    cases A <;> cases B <;> simp [Res.bind] at h1
    · cases C <;> simp [Res.bind, outputOf, h1]
    · subst h1; rfl
    · subst h1; rfl

theorem locate_append (m : Mode) (buf : Bytes) (as bs : List Batch) (c : Clock) :
    locate m buf (as ++ bs) c = (locate m buf as c).bind fun r => (locate m buf bs r.2).bind fun q => .ok (r.1 ++ q.1, q.2) := by
  induction as generalizing c with
  | nil => cases h : locate m buf bs c <;> simp [locate, Res.bind, h]
  | cons a as ih =>
    simp only [List.cons_append, locate, bind]
    cases updateTimestamp m buf a c with
    | throws e => rfl
    | ub u => rfl
    | ok r =>
      simp only [Res.bind, ih]
      cases locate m buf as r.2 with
      | throws e => rfl
      | ub u => rfl
      | ok q =>
        simp only
        cases locate m buf bs q.2 <;> simp

/-- Locating and clustering of the batches of complete chunks. -/
theorem round_core (x : CliCtx) (hx : x.mode = .gdc) (tgdc : Bool) (cs : List Chunk) (c : Clock)
    (hw : ∀ k ∈ cs, k.WellFormed) (hn : ∀ k ∈ cs, k.NoLookAlike) :
    ∃ bs1, (if tgdc then locate .gdc (streamBytes cs) (scan (streamWords cs) 0) c else .ok (scan (streamWords cs) 0, c)) =
        .ok (bs1, roundClock tgdc c cs) ∧
      (oneAll ⟨.gdc, streamBytes cs, x.params, x.solve⟩ (bs1.map fun b => ⟨b, []⟩)).bind (fun es => .ok (outputOf es)) =
        evAll x (roundHits tgdc c cs) := by
  have hb : streamBytes cs = ([] ++ streamWords cs).flatMap bytesOf := rfl
  cases tgdc with
  | true =>
    have := chunk_core x [] cs c hw hn (streamBytes cs) hb
    rw [hx] at this
    exact this
  | false =>
    refine ⟨_, rfl, ?_⟩
    have := alone_core x hx [] cs hw hn (streamBytes cs) hb c
    rw [hx] at this
    exact this

/-- A batch at the end of the bytes gives nothing and changes no time. -/
theorem end_batch (x : CliCtx) (hx : x.mode = .gdc) (tgdc : Bool) (buf : Bytes) (hbuf : buf.length % 8 = 0) (b : Batch)
    (hb1 : b.index = buf.length) (hb2 : b.hits = []) (c : Clock) :
    ∃ b', (if tgdc then locate .gdc buf [b] c else .ok ([b], c)) = .ok ([b'], c) ∧
      (oneAll ⟨.gdc, buf, x.params, x.solve⟩ [⟨b', []⟩]).bind (fun es => .ok (outputOf es)) = .ok [([], [])] := by
  have hp : ¬ reachesPartial buf b.index b.numPackets := by unfold reachesPartial; omega
  have hk : ∀ b' : Batch, b'.index = b.index → b'.numPackets = b.numPackets → b'.hits = [] →
      (oneAll ⟨.gdc, buf, x.params, x.solve⟩ [⟨b', []⟩]).bind (fun es => .ok (outputOf es)) = .ok [([], [])] := by
    intro b' i1 i2 i3
    have h1 := one_eq x buf b' (by rw [i1, i2]; exact hp) i3
    rw [i1, hb1, batchPackets_end] at h1
    simp only [runPackets, eventsOf_nil, hx] at h1
    simp only [oneAll, bind]
    revert h1
    generalize ProcCtx.one _ _ = A
    intro h1
    cases A <;> simp [Res.bind] at h1
    simp [Res.bind, outputOf, h1]
  cases tgdc with
  | true =>
    refine ⟨{ b with clock := storedClock .gdc b c }, ?_, hk _ rfl rfl hb2⟩
    simp only [if_true, locate, updateTimestamp_eq]
    rw [if_neg hp, hb1, batchPackets_end]
    rfl
  | false => exact ⟨b, rfl, hk b rfl rfl hb2⟩

/-- One round on the rest `cs` of a stream: it processes the first `n` chunks of it and possibly an empty batch, which is all
of them if there are fewer than the limit. -/
theorem mmapRound_stream (solve : List GaussRow → F64 × F64) (o : MmapOptions) (cut : Cut) (buf : Bytes) (len off : Nat)
    (cs : List Chunk) (c : Clock) (hlen : 2 ≤ len) (hrest : buf.drop off = streamBytes cs) (hcs : cs ≠ [])
    (hw : ∀ c ∈ cs, c.WellFormed) (hn : ∀ c ∈ cs, c.NoLookAlike) :
    ∃ n tail, 1 ≤ n ∧ n ≤ cs.length ∧ (cs.length < len → n = cs.length) ∧ (∀ t ∈ tail, t = ([], [])) ∧
      (mmapRound solve o cut buf len off c).bind (fun r => .ok (outputOf r.1, r.2)) =
        (evAll ⟨.gdc, mmapParams, solve⟩ (roundHits o.tgdc c (cs.take n))).bind fun v =>
          .ok (v ++ tail, (v ++ tail).map Prod.snd, (streamBytes (cs.take n)).length, roundClock o.tgdc c (cs.take n)) := by
  obtain ⟨x, hx⟩ : ∃ x : CliCtx, x = ⟨.gdc, mmapParams, solve⟩ := ⟨_, rfl⟩
  have hxm : x.mode = .gdc := by rw [hx]
  have hfin : ∀ (sub : Bytes) (bs1 : List Batch) (v : Res (List (List Hit × List Neutron))) (k : Nat) (c' : Clock),
      (oneAll ⟨.gdc, sub, mmapParams, solve⟩ (bs1.map fun b => ⟨b, []⟩)).bind (fun es => .ok (outputOf es)) = v →
      ((oneAll ⟨.gdc, sub, mmapParams, solve⟩ (bs1.map fun b => ⟨b, []⟩)).bind fun es =>
        (.ok (es, [] ++ es.map fun e => e.neutrons) : Res _)).bind (fun e => (.ok (e.1, e.2, k, c') : Res _).bind
          fun r => .ok (outputOf r.1, r.2)) = v.bind fun v => .ok (v, v.map Prod.snd, k, c') := by
    intro sub bs1 v k c' h
    subst h
    cases oneAll ⟨.gdc, sub, mmapParams, solve⟩ (bs1.map fun b => ⟨b, []⟩) with
    | ok es => simp [Res.bind, outputOf]
    | throws e => rfl
    | ub u => rfl
  unfold mmapRound mmapLocate
  rw [findTPX3HLim_eq, hrest, wordsOf_streamBytes]
  simp only [bind, reduceCut_eq]
  rw [← hx]
  rcases Nat.lt_or_ge cs.length len with hlt | hge
  · rcases scanLim_cases len (streamWords cs) 0 0 (by omega) with ⟨e, hcnt⟩ | ⟨pre, h, post, hW, hh, hcnt, e⟩
    · refine ⟨cs.length, [], List.length_pos_iff.mpr hcs, Nat.le_refl _, fun _ => rfl, by simp, ?_⟩
      obtain ⟨bs1, h1, h2⟩ := round_core x hxm o.tgdc cs c hw hn
      rw [List.take_length, e, Nat.zero_add, ← streamBytes_length]
      simp only [Res.bind]
      rw [List.take_length, h1]
      simp only [List.append_nil]
      have h2' : (oneAll ⟨.gdc, streamBytes cs, mmapParams, solve⟩ (bs1.map fun b => ⟨b, []⟩)).bind
          (fun es => .ok (outputOf es)) = evAll x (roundHits o.tgdc c cs) := by rw [← h2, hx]
      have := hfin (streamBytes cs) bs1 _ (streamBytes cs).length (roundClock o.tgdc c cs) h2'
      revert this
      generalize oneAll _ _ = A
      generalize evAll x _ = B
      intro this
      cases A <;> cases B <;> simp [Res.bind] at this ⊢ <;> exact this
    · exfalso
      have h1 := countP_stream cs hw
      have h2 : (cs.map fun c => c.packets.countP (fun w => StartsTPX w)).sum = 0 := by
        rw [sum_zero_iff]
        intro x hx
        obtain ⟨d, hd, rfl⟩ := List.mem_map.mp hx
        rw [List.countP_eq_zero]
        intro w hw'
        simpa using hn d hd w hw'
      rw [hW, List.countP_append, List.countP_cons] at h1
      simp [hh] at h1
      omega
  · obtain ⟨b, e, hb1, hb2⟩ := scanLim_stream len cs 0 0 (by omega) hw hn (by omega)
    rw [e, Nat.sub_zero, Nat.zero_add]
    rw [Nat.sub_zero, Nat.zero_add] at hb1
    refine ⟨len - 1, [([], [])], by omega, by omega, by omega, by simp, ?_⟩
    have hdrop : streamBytes cs = streamBytes (cs.take (len - 1)) ++ streamBytes (cs.drop (len - 1)) := by
      rw [← streamBytes_append, List.take_append_drop]
    generalize hds : cs.take (len - 1) = ds at *
    have hsub : (streamBytes cs).take (8 * (streamWords ds).length) = streamBytes ds := by
      rw [hdrop, ← streamBytes_length, List.take_left]
    have hwd : ∀ d ∈ ds, d.WellFormed := fun d hd => hw d (List.mem_of_mem_take (by rw [hds]; exact hd))
    have hnd : ∀ d ∈ ds, d.NoLookAlike := fun d hd => hn d (List.mem_of_mem_take (by rw [hds]; exact hd))
    obtain ⟨bs1, h1, h2⟩ := round_core x hxm o.tgdc ds c hwd hnd
    obtain ⟨b', h3, h4⟩ := end_batch x hxm o.tgdc (streamBytes ds) (by rw [streamBytes_length]; omega) b
      (by rw [hb1, streamBytes_length]) hb2 (roundClock o.tgdc c ds)
    have hl : (if o.tgdc = true then locate .gdc (streamBytes ds) (scan (streamWords ds) 0 ++ [b]) c
        else .ok (scan (streamWords ds) 0 ++ [b], c)) = .ok (bs1 ++ [b'], roundClock o.tgdc c ds) := by
      cases ht : o.tgdc with
      | true =>
        simp only [ht, if_true] at h1 h3 ⊢
        rw [locate_append, h1]
        simp only [Res.bind]
        rw [h3]
      | false =>
        simp only [ht, Bool.false_eq_true, if_false, Res.ok.injEq, Prod.mk.injEq, List.cons.injEq, and_true] at h1 h3 ⊢
        rw [h1.1, h3, ← h1.2]
        exact ⟨rfl, rfl⟩
    have ho : (oneAll ⟨.gdc, streamBytes ds, mmapParams, solve⟩ ((bs1 ++ [b']).map fun b => ⟨b, []⟩)).bind
        (fun es => .ok (outputOf es)) = (evAll x (roundHits o.tgdc c ds)).bind fun v => .ok (v ++ [([], [])]) := by
      rw [← h2, hx, List.map_append, oneAll_append]
      rw [hx] at h4
      cases oneAll ⟨.gdc, streamBytes ds, mmapParams, solve⟩ (bs1.map fun b => ⟨b, []⟩) with
      | throws e => rfl
      | ub u => rfl
      | ok es =>
        simp only [Res.bind, List.map_cons, List.map_nil]
        revert h4
        cases oneAll ⟨.gdc, streamBytes ds, mmapParams, solve⟩ [⟨b', []⟩] with
        | throws e => simp [Res.bind]
        | ub u => simp [Res.bind]
        | ok es' =>
          intro h4
          simp only [Res.bind, Res.ok.injEq] at h4 ⊢
          rw [← h4, outputOf, List.map_append]
          rfl
    simp only [Res.bind]
    rw [hsub, hl]
    simp only
    have := hfin (streamBytes ds) (bs1 ++ [b']) _ (streamBytes ds).length (roundClock o.tgdc c ds) ho
    rw [streamBytes_length] at this ⊢
    revert this
    generalize oneAll _ _ = A
    generalize evAll x _ = B
    intro this
    cases A <;> cases B <;> simp [Res.bind] at this ⊢ <;> exact this

/-! ## The loop on a stream -/

/-- The number of hits counted as bad. -/
def badCount (o : MmapOptions) (hs : List Hit) : Nat :=
  if o.pulse = 0 then 0 else hs.countP fun h => h.tofNs.map (badTof o.pulse) = some true

theorem badCount_append (o : MmapOptions) (as bs : List Hit) : badCount o (as ++ bs) = badCount o as + badCount o bs := by
  unfold badCount
  split_ifs
  · rfl
  · exact List.countP_append

theorem countBad_eq (pulse : Nat) (hs : List Hit) (hh : ∀ h ∈ hs, h.tof ≠ none) :
    countBad pulse hs = .ok (hs.countP fun h => h.tofNs.map (badTof pulse) = some true) := by
  induction hs with
  | nil => rfl
  | cons h hs ih =>
    rw [countBad, List.countP_cons]
    cases ht : h.tof with
    | none => exact absurd ht (hh h (by simp))
    | some t =>
      simp only [Hit.tofNs, ht, Option.map_some]
      rw [ih fun g hg => hh g (by simp [hg])]
      simp only [bind, Res.bind, Hit.tofNs, Option.some.injEq, decide_eq_true_eq]
      split_ifs <;> rfl

theorem roundBad_eq (o : MmapOptions) (hs : List Hit) (hh : ∀ h ∈ hs, h.tof ≠ none) :
    roundBad o hs = .ok (badCount o hs) := by
  unfold roundBad badCount
  split_ifs
  · rfl
  · exact countBad_eq o.pulse hs hh

theorem mmapLoop_stream (solve : List GaussRow → F64 × F64) (o : MmapOptions) (cuts : Nat → Cut) (buf : Bytes) (len : Nat)
    (hlen : 2 ≤ len) (fuel : Nat) (s : MmapState) (cs : List Chunk) (ho : s.offset ≤ buf.length)
    (hrest : buf.drop s.offset = streamBytes cs) (hw : ∀ c ∈ cs, c.WellFormed) (hn : ∀ c ∈ cs, c.NoLookAlike)
    (hfuel : cs.length ≤ fuel) (v : List (List Hit × List Neutron))
    (hv : evAll ⟨.gdc, mmapParams, solve⟩ (roundHits o.tgdc s.clock cs) = .ok v)
    (hh : ∀ p ∈ v, ∀ h ∈ p.1, h.tof ≠ none) :
    ∃ s', mmapLoop solve o cuts buf len fuel s = .ok (some s') ∧
      s'.vectors.flatten = s.vectors.flatten ++ (v.map Prod.snd).flatten ∧
      s'.hits = s.hits + (v.map Prod.fst).flatten.length ∧
      s'.bad = s.bad + badCount o (v.map Prod.fst).flatten ∧
      s'.clock = roundClock o.tgdc s.clock cs ∧
      (cs ≠ [] → s.events + s'.vectors.flatten.length ≤ s'.events) ∧
      (cs = [] → s'.events = s.events) ∧
      (cs ≠ [] → cs.length < len → s'.events = s.events + s'.vectors.flatten.length) ∧
      (s'.vectors.flatten = [] → s'.events = s.events) := by
  induction fuel generalizing s cs v with
  | zero =>
    have hcs : cs = [] := List.eq_nil_of_length_eq_zero (by omega)
    subst hcs
    have hv' : v = [] := by
      have : roundHits o.tgdc s.clock [] = [] := by cases o.tgdc <;> rfl
      rw [this] at hv
      simpa [evAll] using hv.symm
    subst hv'
    have h0 := congrArg List.length hrest
    have h1 : (streamBytes []).length = 0 := rfl
    rw [List.length_drop] at h0
    refine ⟨s, ?_, by simp, by simp, by simp [badCount], by cases o.tgdc <;> rfl, by simp, by simp, by simp, by simp⟩
    rw [mmapLoop, if_neg (by omega)]
  | succ fuel ih =>
    by_cases hcs : cs = []
    · subst hcs
      have hv' : v = [] := by
        have : roundHits o.tgdc s.clock [] = [] := by cases o.tgdc <;> rfl
        rw [this] at hv
        simpa [evAll] using hv.symm
      subst hv'
      have h0 := congrArg List.length hrest
      have h1 : (streamBytes []).length = 0 := rfl
      rw [List.length_drop] at h0
      refine ⟨s, ?_, by simp, by simp, by simp [badCount], by cases o.tgdc <;> rfl, by simp, by simp, by simp, by simp⟩
      rw [mmapLoop, if_neg (by omega)]
    · obtain ⟨n, tail, hn1, hn2, hn3, htail, hr⟩ := mmapRound_stream solve o (cuts fuel) buf len s.offset cs s.clock hlen hrest
        hcs hw hn
      have h0 := congrArg List.length hrest
      rw [List.length_drop] at h0
      have hpos : 0 < (streamBytes cs).length := by
        rcases Nat.eq_zero_or_pos (streamBytes cs).length with h | h
        · exact absurd ((streamBytes_nil_iff cs).mp h) hcs
        · exact h
      have hcut := roundHits_append o.tgdc s.clock (cs.take n) (cs.drop n)
      rw [List.take_append_drop] at hcut
      rw [hcut.1, evAll_append] at hv
      cases ha : evAll ⟨.gdc, mmapParams, solve⟩ (roundHits o.tgdc s.clock (cs.take n)) with
      | throws e => rw [ha] at hv; simp [Res.bind] at hv
      | ub u => rw [ha] at hv; simp [Res.bind] at hv
      | ok v1 =>
        cases hb : evAll ⟨.gdc, mmapParams, solve⟩
            (roundHits o.tgdc (roundClock o.tgdc s.clock (cs.take n)) (cs.drop n)) with
        | throws e => rw [ha, hb] at hv; simp [Res.bind] at hv
        | ub u => rw [ha, hb] at hv; simp [Res.bind] at hv
        | ok v2 =>
          rw [ha, hb] at hv
          simp only [Res.bind, Res.ok.injEq] at hv
          subst hv
          rw [ha] at hr
          simp only [Res.bind] at hr
          cases hrd : mmapRound solve o (cuts fuel) buf len s.offset s.clock with
          | throws e => rw [hrd] at hr; simp at hr
          | ub u => rw [hrd] at hr; simp at hr
          | ok r =>
            rw [hrd] at hr
            obtain ⟨r1, r2, r3, r4⟩ := r
            simp only [Res.ok.injEq, Prod.mk.injEq] at hr
            obtain ⟨q1, q2, q3, q4⟩ := hr
            subst q2 q3 q4
            have ht1 : (tail.map Prod.fst).flatten = [] := by
              rw [List.flatten_eq_nil_iff]
              intro l hl
              obtain ⟨t, h1, rfl⟩ := List.mem_map.mp hl
              rw [htail t h1]
            have ht2 : (tail.map Prod.snd).flatten = [] := by
              rw [List.flatten_eq_nil_iff]
              intro l hl
              obtain ⟨t, h1, rfl⟩ := List.mem_map.mp hl
              rw [htail t h1]
            have hhits : r1.flatMap (fun e => e.batch.hits) = (v1.map Prod.fst).flatten := by
              have : r1.flatMap (fun e => e.batch.hits) = ((outputOf r1).map Prod.fst).flatten := by
                rw [List.flatMap_def, outputOf, List.map_map]
                rfl
              rw [this, q1, List.map_append, List.flatten_append, ht1, List.append_nil]
            have htof1 : ∀ h ∈ (v1.map Prod.fst).flatten, h.tof ≠ none := by
              intro h hm
              obtain ⟨l, hl, hm⟩ := List.mem_flatten.mp hm
              obtain ⟨p, hp, rfl⟩ := List.mem_map.mp hl
              exact hh p (by simp [hp]) h hm
            obtain ⟨s1, hs1⟩ : ∃ s1 : MmapState, s1 = ⟨s.offset + (streamBytes (cs.take n)).length,
              roundClock o.tgdc s.clock (cs.take n), s.vectors ++ (v1 ++ tail).map Prod.snd,
              s.hits + (v1.map Prod.fst).flatten.length, s.bad + badCount o (v1.map Prod.fst).flatten,
              s.events + ((s.vectors ++ (v1 ++ tail).map Prod.snd).map List.length).sum⟩ := ⟨_, rfl⟩
            have hnext : s.next o (r1, (v1 ++ tail).map Prod.snd, (streamBytes (cs.take n)).length,
                roundClock o.tgdc s.clock (cs.take n)) = .ok s1 := by
              unfold MmapState.next
              simp only [hhits, roundBad_eq o _ htof1, bind, Res.bind]
              rw [hs1]
            have hsplit : streamBytes cs = streamBytes (cs.take n) ++ streamBytes (cs.drop n) := by
              rw [← streamBytes_append, List.take_append_drop]
            have hsl := congrArg List.length hsplit
            rw [List.length_append] at hsl
            have hvec : s1.vectors.flatten = s.vectors.flatten ++ (v1.map Prod.snd).flatten := by
              rw [hs1]
              simp only [List.flatten_append, List.map_append, ht2, List.append_nil]
            have hev : s1.events = s.events + s1.vectors.flatten.length := by
              rw [hs1]
              simp only [List.length_flatten]
            obtain ⟨s', i1, i2, i3, i4, i5, i6, i7, i8, i9⟩ := ih s1 (cs.drop n) (by rw [hs1]; simp only; omega)
              (by rw [hs1]; simp only; rw [← List.drop_drop, hrest, hsplit, List.drop_left])
              (fun d hd => hw d (List.mem_of_mem_drop hd)) (fun d hd => hn d (List.mem_of_mem_drop hd))
              (by rw [List.length_drop]; omega) v2 (by rw [hs1]; exact hb)
              (fun p hp => hh p (by simp [hp]))
            refine ⟨s', ?_, ?_, ?_, ?_, ?_, ?_, ?_, ?_, ?_⟩
            · rw [mmapLoop, if_pos (by omega)]
              simp only [bind, hrd, Res.bind, hnext]
              exact i1
            · rw [i2, hvec, List.map_append, List.flatten_append, List.append_assoc]
            · rw [i3, hs1]
              simp only [List.map_append, List.flatten_append, List.length_append]
              omega
            · rw [i4, hs1]
              simp only [List.map_append, List.flatten_append, badCount_append]
              omega
            · rw [i5, hs1, hcut.2]
            · intro _
              by_cases hd : cs.drop n = []
              · have h2 : v2 = [] := by
                  have : roundHits o.tgdc (roundClock o.tgdc s.clock (cs.take n)) [] = [] := by cases o.tgdc <;> rfl
                  rw [hd, this] at hb
                  simpa [evAll] using hb.symm
                rw [i7 hd, hev, i2, h2]
                simp
              · have := i6 hd
                omega
            · exact fun h => absurd h hcs
            · intro _ hlt
              have hd : cs.drop n = [] := by rw [hn3 hlt]; exact List.drop_length
              have h2 : v2 = [] := by
                have : roundHits o.tgdc (roundClock o.tgdc s.clock (cs.take n)) [] = [] := by cases o.tgdc <;> rfl
                rw [hd, this] at hb
                simpa [evAll] using hb.symm
              rw [i7 hd, hev, i2, h2]
              simp
            · intro h0
              rw [i9 h0, hev]
              rw [i2] at h0
              rw [(List.append_eq_nil_iff.mp h0).1]
              rfl

/-! ## C85 -/

theorem roundHits_start (tgdc : Bool) (cs : List Chunk) : roundHits tgdc Clock.zero cs = seenHits tgdc cs := by
  cases tgdc with
  | true =>
    simp only [roundHits, seenHits, if_true]
    exact perChunk_hits .gdc Clock.zero (by decide) cs
  | false =>
    simp only [roundHits, seenHits, Bool.false_eq_true, if_false, chunkHits]
    induction cs with
    | nil => rfl
    | cons k ks ih =>
      simp only [List.map_cons, List.flatMap_cons, List.singleton_append]
      rw [ih, (runGdc_spec (headerChipId k.header) k.packets Clock.zero (by decide)).2.2]
      rfl

/-- Hits with a global clock have a time of flight. -/
theorem hitGdc_defined (w tdc gdc : U64) (chip : Int) : (hitGdc w tdc gdc chip).tof ≠ none := by
  rw [hitGdc_tof]
  obtain ⟨r, h, _⟩ := foldTof_spec (2 ^ 32) (rawTof (hitGdc w tdc gdc chip).spidertime tdc) (Nat.le_of_lt (BitVec.isLt _))
  rw [h]
  simp

/-- Where the hits of a chunk come from. -/
theorem seenHits_from (tgdc : Bool) (cs : List Chunk) (hw : ∀ c ∈ cs, c.WellFormed) (l : List Hit) (hl : l ∈ seenHits tgdc cs) :
    l.length ≤ 2 ^ 31 ∧ ∀ h ∈ l, ∃ w tdc gdc chip, h = hitGdc w tdc gdc chip := by
  have hone : ∀ k : Chunk, k.WellFormed → ∀ c, (runPackets .gdc true (headerChipId k.header) k.packets c).2.length ≤ 2 ^ 31 ∧
      ∀ h ∈ (runPackets .gdc true (headerChipId k.header) k.packets c).2, ∃ w tdc gdc chip, h = hitGdc w tdc gdc chip := by
    intro k hk c
    obtain ⟨h1, h2⟩ := runPackets_hits .gdc (headerChipId k.header) k.packets c
    have := hk.2
    have hf : field k.header 48 16 < 2 ^ 16 := Nat.mod_lt _ (by decide)
    refine ⟨by omega, fun h hh => ?_⟩
    obtain ⟨w, tdc, gdc, he⟩ := h2 h hh
    rcases he with ⟨-, he⟩ | ⟨h1, -⟩
    · exact ⟨w, tdc, gdc, _, he⟩
    · simp at h1
  rw [← roundHits_start] at hl
  cases tgdc with
  | true =>
    simp only [roundHits, if_true] at hl
    generalize Clock.zero = c at hl
    induction cs generalizing c with
    | nil => simp [perChunk] at hl
    | cons k ks ih =>
      simp only [perChunk, List.mem_cons] at hl
      rcases hl with rfl | hl
      · exact hone k (hw k (by simp)) c
      · exact ih (fun d hd => hw d (by simp [hd])) _ hl
  | false =>
    simp only [roundHits, Bool.false_eq_true, if_false] at hl
    obtain ⟨k, hk, rfl⟩ := List.mem_map.mp hl
    exact hone k (hw k hk) _

theorem seenHits_defined (tgdc : Bool) (cs : List Chunk) (hw : ∀ c ∈ cs, c.WellFormed) :
    ∀ hs ∈ seenHits tgdc cs, ∀ h ∈ hs, h.tof ≠ none := by
  intro hs hm h hh
  obtain ⟨w, tdc, gdc, chip, rfl⟩ := (seenHits_from tgdc cs hw hs hm).2 h hh
  exact hitGdc_defined _ _ _ _

theorem evAll_returns (x : CliCtx) (L : List (List Hit))
    (h : ∀ hs ∈ L, ∀ h ∈ hs, h.spidertime.toNat < 2 ^ 48 ∧ h.tof ≠ none) : ∃ v, evAll x L = .ok v := by
  induction L with
  | nil => exact ⟨[], rfl⟩
  | cons a L ih =>
    obtain ⟨es, he⟩ := eventsOf_returns x a (h a (by simp))
    obtain ⟨v, hv⟩ := ih fun hs hh => h hs (by simp [hh])
    exact ⟨(a, es) :: v, by simp [evAll, bind, Res.bind, he, hv]⟩

/-- C85: on a well-formed stream without look-alikes, with 48-bit spider times and a limit of at least two batches a round, the
loop ends, and whatever the scheduler does the vectors of events hold, in order, the events of the hits of every chunk.  The
hits are counted once; those called bad are the ones `badTof` says. -/
theorem c85_events (solve : List GaussRow → F64 × F64) (o : MmapOptions) (cuts : Nat → Cut) (cs : List Chunk) (len : Nat)
    (hlen : 2 ≤ len) (hw : ∀ c ∈ cs, c.WellFormed) (hn : ∀ c ∈ cs, c.NoLookAlike)
    (hs : ∀ hs ∈ seenHits o.tgdc cs, ∀ h ∈ hs, h.spidertime.toNat < 2 ^ 48) (fuel : Nat) (hfuel : cs.length ≤ fuel) :
    ∃ s es, mmapLoop solve o cuts (streamBytes cs) len fuel MmapState.start = .ok (some s) ∧
      List.Forall₂ (fun h e => eventsOf ⟨.gdc, mmapParams, solve⟩ h = .ok e) (seenHits o.tgdc cs) es ∧
      s.vectors.flatten = es.flatten ∧ s.hits = (seenHits o.tgdc cs).flatten.length ∧
      s.bad = (if o.pulse = 0 then 0 else
        (seenHits o.tgdc cs).flatten.countP fun h => h.tofNs.map (badTof o.pulse) = some true) := by
  have hd := seenHits_defined o.tgdc cs hw
  obtain ⟨v, hv⟩ := evAll_returns ⟨.gdc, mmapParams, solve⟩ (seenHits o.tgdc cs) fun l hl h hh => ⟨hs l hl h hh, hd l hl h hh⟩
  obtain ⟨e1, e2⟩ := evAll_fst _ _ v hv
  obtain ⟨s, h1, h2, h3, h4, -⟩ := mmapLoop_stream solve o cuts (streamBytes cs) len hlen fuel MmapState.start cs
    (Nat.zero_le _) rfl hw hn hfuel v (by rw [← hv, ← roundHits_start]; rfl) (by
      intro p hp
      exact hd p.1 (by rw [← e1]; exact List.mem_map_of_mem hp))
  refine ⟨s, v.map Prod.snd, h1, ?_, by simpa [MmapState.start] using h2, by rw [h3, e1]; simp [MmapState.start], ?_⟩
  · rw [← e1, List.forall₂_map_left_iff, List.forall₂_map_right_iff, List.forall₂_same]
    exact e2
  · rw [h4, e1]
    simp [MmapState.start, badCount]

theorem mmapParams_feature : mmapParams.feature = .fin 5 := by decide +kernel

/-- C85, what these events are: one for every visible neutron, when the hits can be told apart. -/
theorem c85_neutrons (solve : List GaussRow → F64 × F64) (o : MmapOptions) (cuts : Nat → Cut) (cs : List Chunk) (len : Nat)
    (hlen : 2 ≤ len) (hw : ∀ c ∈ cs, c.WellFormed) (hn : ∀ c ∈ cs, c.NoLookAlike)
    (hs : ∀ hs ∈ seenHits o.tgdc cs, ∀ h ∈ hs, h.spidertime.toNat < 2 ^ 48) (fuel : Nat) (hfuel : cs.length ≤ fuel)
    (neutron : List (List Int)) (hres : List.Forall₂ (Resolved 75 5) (seenHits o.tgdc cs) neutron) :
    ∃ s, mmapLoop solve o cuts (streamBytes cs) len fuel MmapState.start = .ok (some s) ∧
      List.Forall₂ (IsEventOf 1) (List.zipWith (visible 1) (seenHits o.tgdc cs) neutron).flatten s.vectors.flatten := by
  obtain ⟨s, es, h1, h2, h3, -⟩ := c85_events solve o cuts cs len hlen hw hn hs fuel hfuel
  refine ⟨s, h1, ?_⟩
  rw [h3]
  apply forall₂_flatten
  have hdec : ∀ l ∈ seenHits o.tgdc cs, (∀ h ∈ l, Decoded h) ∧ l.length ≤ 2 ^ 31 := by
    intro l hl
    obtain ⟨h1, h2⟩ := seenHits_from o.tgdc cs hw l hl
    refine ⟨fun h hh => ?_, h1⟩
    obtain ⟨w, tdc, gdc, chip, rfl⟩ := h2 h hh
    obtain ⟨r1, r2, r3, -⟩ := hit_ranges .gdc _ chip w tdc gdc (Or.inl ⟨rfl, rfl⟩)
    obtain ⟨t, ht1, ht2⟩ := c05_bounded w tdc gdc chip
    exact ⟨by omega, by omega, by omega, t, ht1, by omega⟩
  clear h1 h3 hw hn
  generalize seenHits o.tgdc cs = L at hs hres h2 hdec
  induction L generalizing neutron es with
  | nil => cases h2; cases hres; exact .nil
  | cons l L ih =>
    cases h2 with
    | cons a1 a2 =>
      cases hres with
      | cons b1 b2 =>
        rw [List.zipWith_cons_cons]
        refine .cons ?_ (ih _ _ (fun l hl => hs l (by simp [hl])) b2 a2 (fun l hl => hdec l (by simp [hl])))
        exact eventsOf_visible _ _ _ a1 5 mmapParams_feature (by norm_num) (by simp [mmapParams]) (hs l (by simp)) (hdec l (by simp)).1
          (hdec l (by simp)).2 _ b1

/-- C85, the reported number of events: not smaller than the number found, 0 if there are none, and the right number if there is
only one round.  Missing: the number in general, for which it is false (`c85_false_count`). -/
theorem c85_count_partial (solve : List GaussRow → F64 × F64) (o : MmapOptions) (cuts : Nat → Cut) (cs : List Chunk) (len : Nat)
    (hlen : 2 ≤ len) (hw : ∀ c ∈ cs, c.WellFormed) (hn : ∀ c ∈ cs, c.NoLookAlike)
    (hs : ∀ hs ∈ seenHits o.tgdc cs, ∀ h ∈ hs, h.spidertime.toNat < 2 ^ 48) (fuel : Nat) (hfuel : cs.length ≤ fuel) :
    ∃ s, mmapLoop solve o cuts (streamBytes cs) len fuel MmapState.start = .ok (some s) ∧
      s.vectors.flatten.length ≤ s.events ∧ (s.vectors.flatten = [] → s.events = 0) ∧
      (cs.length < len → s.events = s.vectors.flatten.length) := by
  have hd := seenHits_defined o.tgdc cs hw
  obtain ⟨v, hv⟩ := evAll_returns ⟨.gdc, mmapParams, solve⟩ (seenHits o.tgdc cs) fun l hl h hh => ⟨hs l hl h hh, hd l hl h hh⟩
  obtain ⟨e1, e2⟩ := evAll_fst _ _ v hv
  obtain ⟨s, h1, h2, -, -, -, h6, h7, h8, h9⟩ := mmapLoop_stream solve o cuts (streamBytes cs) len hlen fuel MmapState.start cs
    (Nat.zero_le _) rfl hw hn hfuel v (by rw [← hv, ← roundHits_start]; rfl) (by
      intro p hp
      exact hd p.1 (by rw [← e1]; exact List.mem_map_of_mem hp))
  have h0 : MmapState.start.events = 0 := rfl
  refine ⟨s, h1, ?_, h9, ?_⟩
  · by_cases hcs : cs = []
    · subst hcs
      have : v = [] := by
        have h3 : seenHits o.tgdc [] = [] := by cases o.tgdc <;> rfl
        rw [h3] at hv
        simpa [evAll] using hv.symm
      rw [h2, this]
      simp [MmapState.start]
    · have := h6 hcs
      omega
  · intro hlt
    by_cases hcs : cs = []
    · subst hcs
      have : v = [] := by
        have h3 : seenHits o.tgdc [] = [] := by cases o.tgdc <;> rfl
        rw [h3] at hv
        simpa [evAll] using hv.symm
      rw [h7 rfl, h2, this]
      simp [MmapState.start]
    · have := h8 hcs hlt
      omega

/-- A global clock, a trigger and a hit, then a chunk with one more hit far away. -/
def exMapped : List Chunk :=
  [⟨0x0020000033585054#64, [0x4400000000010000#64, 0x4500000000000000#64, 0x6F00000000005000#64, exPacket 0x1234 10]⟩,
   ⟨0x0008000033585054#64, [exPacket 0x8234 30]⟩]

def noSolve : List GaussRow → F64 × F64 := fun _ => (.nan, .nan)

theorem exMapped_noLookAlike : ∀ c ∈ exMapped, c.NoLookAlike := by
  intro k hk w hw
  simp only [exMapped, List.mem_cons, List.not_mem_nil, or_false] at hk
  rcases hk with rfl | rfl <;> simp only [List.mem_cons, List.not_mem_nil, or_false] at hw
  · rcases hw with rfl | rfl | rfl | rfl <;> decide
  · subst hw; decide

example : (∀ c ∈ exMapped, c.WellFormed) ∧ (∀ c ∈ exMapped, c.NoLookAlike) ∧
    (∀ hs ∈ seenHits true exMapped, ∀ h ∈ hs, h.spidertime.toNat < 2 ^ 48) ∧
    List.Forall₂ (Resolved 75 5) (seenHits true exMapped) [[0], [0]] ∧
    (seenHits true exMapped).map List.length = [1, 1] :=
  ⟨by decide, exMapped_noLookAlike, by decide +kernel,
    .cons (resolved_of (by decide +kernel)) (.cons (resolved_of (by decide +kernel)) .nil), by decide +kernel⟩

/-- What a loop that ends has found. -/
def MmapState.summary (r : Res (Option MmapState)) : Option (Nat × Nat × Nat × Nat) :=
  match r with
  | .ok (some s) => some (s.hits, s.bad, s.events, s.vectors.flatten.length)
  | _ => none

/-- C85 is false for the reported number of events when there are several rounds: two events, three reported.  (With the limit
of 100000 batches of the code this needs a file with as many chunks.) -/
theorem c85_false_count : MmapState.summary (mmapLoop noSolve (mmapOptions (some "tgdc".toList)) (fun _ => .whole)
    (streamBytes exMapped) 2 2 MmapState.start) = some (2, 0, 3, 2) := by decide +kernel

/-- C85 is false without the option `tgdc`, which is off unless asked for: the hit of the second chunk is lost. -/
theorem c85_false_alone : MmapState.summary (mmapLoop noSolve (mmapOptions none) (fun _ => .whole)
    (streamBytes exMapped) 100000 2 MmapState.start) = some (1, 0, 1, 1) := by decide +kernel

/-! ## C86: what is written -/

theorem suffix_last {a b s : List Char} {x y : Char} (ha : a ++ [x] <:+ s) (hb : b ++ [y] <:+ s) : x = y := by
  obtain ⟨p, rfl⟩ := ha
  obtain ⟨q, hq⟩ := hb
  have h1 : (p ++ (a ++ [x])).getLast? = some x := by rw [← List.append_assoc, List.getLast?_concat]
  have h2 : (q ++ (b ++ [y])).getLast? = some y := by rw [← List.append_assoc, List.getLast?_concat]
  rw [hq, h1] at h2
  injection h2

theorem nameEndsWith_one (path : Path) : (nameEndsWith path ".h5" = true → nameEndsWith path ".csv" = false ∧ nameEndsWith path ".bin" = false) ∧
    (nameEndsWith path ".bin" = true → nameEndsWith path ".csv" = false) := by
  have e1 : ".h5".toList = ['.', 'h'] ++ ['5'] := by decide
  have e2 : ".csv".toList = ['.', 'c', 's'] ++ ['v'] := by decide
  have e3 : ".bin".toList = ['.', 'b', 'i'] ++ ['n'] := by decide
  simp only [nameEndsWith, decide_eq_true_eq, decide_eq_false_iff_not, e1, e2, e3]
  refine ⟨fun h => ⟨fun h' => ?_, fun h' => ?_⟩, fun h h' => ?_⟩
  · exact absurd (suffix_last h h') (by decide)
  · exact absurd (suffix_last h h') (by decide)
  · exact absurd (suffix_last h h') (by decide)

/-- The part of a run on a stream before the output. -/
theorem mmapMain_stream (solve : List GaussRow → F64 × F64) (cuts : Nat → Cut) (cs : List Chunk) (args : List (List Char))
    (ha : args ≠ []) (env : MmapEnv) (henv : env.input = some (streamBytes cs) ∧ env.writable = true ∧ env.memory = true)
    (hlen : 2 ≤ env.limit) (hw : ∀ c ∈ cs, c.WellFormed) (hn : ∀ c ∈ cs, c.NoLookAlike)
    (hs : ∀ hs ∈ seenHits (mmapOptions args[2]?).tgdc cs, ∀ h ∈ hs, h.spidertime.toNat < 2 ^ 48)
    (fuel : Nat) (hfuel : cs.length ≤ fuel) :
    ∃ s es, List.Forall₂ (fun h e => eventsOf ⟨.gdc, mmapParams, solve⟩ h = .ok e)
        (seenHits (mmapOptions args[2]?).tgdc cs) es ∧ s.vectors.flatten = es.flatten ∧
      (s.events = 0 ↔ es.flatten = []) ∧
      ∀ canOpen fault d, mmapMain solve cuts fuel canOpen fault args env d =
        (mmapFinish canOpen fault args[1]? s d).bind fun r => .ok (some r) := by
  obtain ⟨s, es, h1, h2, h3, -⟩ := c85_events solve (mmapOptions args[2]?) cuts cs env.limit hlen hw hn hs fuel hfuel
  obtain ⟨s', g1, g2, g3, -⟩ := c85_count_partial solve (mmapOptions args[2]?) cuts cs env.limit hlen hw hn hs fuel hfuel
  rw [h1] at g1
  injection g1 with g1
  injection g1 with g1
  subst g1
  refine ⟨s, es, h2, h3, ?_, ?_⟩
  · rw [h3] at g2 g3
    refine ⟨fun h => ?_, g3⟩
    rw [h] at g2
    exact List.length_eq_zero_iff.mp (by omega)
  · intro canOpen fault d
    unfold mmapMain mmapInput
    rw [if_neg ha, henv.1, henv.2.1, henv.2.2]
    simp only [bind, Res.bind]
    by_cases hm : (mmapOptions args[2]?).mmap = true
    · by_cases hf : streamBytes cs = []
      · rw [if_pos hm]
        simp only [Bool.not_true, Bool.false_eq_true, if_false, if_true, hf]
        rw [hf] at h1
        rw [h1]
      · rw [if_pos hm]
        simp only [Bool.not_true, Bool.false_eq_true, if_false, if_true, hf]
        rw [h1]
    · rw [if_neg hm]
      simp only [if_true, h1]

/-- C86, HDF5: position, number of hits and time over threshold of every event, in order; the time of flight twice converted.
Missing: the time of flight in ns, for which it is false (`c86_tof`, `c86_false_tof`). -/
theorem c86_h5_partial (solve : List GaussRow → F64 × F64) (cuts : Nat → Cut) (cs : List Chunk) (input out : List Char)
    (rest : List (List Char)) (hout : nameEndsWith out ".h5" = true) (env : MmapEnv)
    (henv : env.input = some (streamBytes cs) ∧ env.writable = true ∧ env.memory = true)
    (hlen : 2 ≤ env.limit) (hw : ∀ c ∈ cs, c.WellFormed) (hn : ∀ c ∈ cs, c.NoLookAlike)
    (hs : ∀ hs ∈ seenHits (mmapOptions rest[0]?).tgdc cs, ∀ h ∈ hs, h.spidertime.toNat < 2 ^ 48)
    (fuel : Nat) (hfuel : cs.length ≤ fuel) (canOpen : Bool) (d : Disk) :
    ∃ es d', List.Forall₂ (fun h e => eventsOf ⟨.gdc, mmapParams, solve⟩ h = .ok e)
        (seenHits (mmapOptions rest[0]?).tgdc cs) es ∧
      mmapMain solve cuts fuel canOpen none (input :: out :: rest) env d = .ok (some (d', .exit 0)) ∧
      (es.flatten = [] → d' = d) ∧
      (es.flatten ≠ [] → d' = Function.update d out (some (.h5 [("neutrons".toList,
        [(['x'], .doubles (es.flatten.map fun e => e.x)), (['y'], .doubles (es.flatten.map fun e => e.y)),
         ("tof".toList, .doubles (es.flatten.map fun e => F64.mul (F64.mul e.tof (F64.ofRat 25)) (F64.ofRat 25))),
         ("nHits".toList, .ints (es.flatten.map fun e => (e.nHits : Int))),
         ("tot".toList, .doubles (es.flatten.map fun e => e.tot))])]))) := by
  obtain ⟨s, es, h1, h2, h3, h4⟩ := mmapMain_stream solve cuts cs (input :: out :: rest) (by simp) env henv hlen hw hn hs fuel
    hfuel
  obtain ⟨o1, o2⟩ := (nameEndsWith_one out).1 hout
  by_cases he : es.flatten = []
  · refine ⟨es, d, h1, ?_, fun _ => rfl, fun h => absurd he h⟩
    rw [h4]
    unfold mmapFinish
    simp only [List.getElem?_cons_succ, List.getElem?_cons_zero]
    rw [if_pos (h3.mpr he)]
    rfl
  · have hg : gathered s.vectors ≠ [] := by
      unfold gathered
      rw [h2]
      simpa using he
    refine ⟨es, _, h1, ?_, fun h => absurd h he, fun _ => rfl⟩
    rw [h4]
    unfold mmapFinish
    simp only [List.getElem?_cons_succ, List.getElem?_cons_zero]
    rw [if_neg (fun h => he (h3.mp h)), o1, o2, hout]
    unfold saveMmapH5
    rw [if_neg hg]
    simp only [Bool.false_eq_true, if_false, if_true, plainSave, reduceCtorEq, mmapColumns, writeColumns, List.nil_append,
      List.cons_append]
    simp only [Res.bind, gathered, h2, List.map_map]
    rfl

/-- C86, the time of flight that is written: 625 times the clock ticks, that is 25 times the ns. -/
theorem c86_tof (e : Neutron) (t : Nat) (ht : t < 2 ^ 40) (h : e.tof = .fin t) :
    e.tofNs = .fin (25 * t : Nat) ∧ F64.mul (F64.mul e.tof (F64.ofRat 25)) (F64.ofRat 25) = .fin (25 * (25 * t) : Nat) := by
  have h25 : F64.ofRat 25 = .fin 25 := by
    have := F64.ofRat_int (n := 25) (by norm_num)
    exact_mod_cast this
  have hm : ∀ k : Nat, k < 2 ^ 46 → F64.mul (.fin k) (.fin 25) = .fin (25 * k : Nat) := by
    intro k hk
    have := F64.ofRat_int (n := (25 * k : Nat)) (by rw [Nat.abs_cast]; norm_num; omega)
    show F64.ofRat ((k : ℚ) * 25) = _
    rw [show (k : ℚ) * 25 = (((25 * k : Nat) : Int) : ℚ) by push_cast; ring, this]
    push_cast
    rfl
  have h1 := hm t (by omega)
  have h2 := hm (25 * t) (by omega)
  unfold Neutron.tofNs
  rw [h, h25, h1]
  exact ⟨rfl, h2⟩

/-- One run of the program on the given bytes with the given second and third argument. -/
def exRun (cs : List Chunk) (out opts : String) (d : Disk) : Res (Option (Disk × MmapEnd)) :=
  mmapMain noSolve (fun _ => .whole) 2 true none ["in.tpx3".toList, out.toList, opts.toList]
    ⟨some (streamBytes cs), true, true, 100000⟩ d

/-- The file that a run leaves. -/
def fileOf (path : String) (r : Res (Option (Disk × MmapEnd))) : Option DiskFile :=
  match r with
  | .ok (some (d, _)) => d path.toList
  | _ => none

/-- C86 is false: flights of 5 and 25 ticks, 125 ns and 625 ns, are written as 3125 and 15625. -/
theorem c86_false_tof : fileOf "e.h5" (exRun exMapped "e.h5" "tgdc" fun _ => none) = some (.h5 [("neutrons".toList,
    [(['x'], .doubles [.fin 279, .fin 391]), (['y'], .doubles [.fin 24, .fin 24]), ("tof".toList, .doubles [.fin 3125, .fin 15625]),
     ("nHits".toList, .ints [1, 1]), ("tot".toList, .doubles [.fin 10, .fin 10])])]) := by decide +kernel

/-- C86, text: the lines go to the end of the file that is there, with the header line before them every time. -/
theorem c86_csv_partial (solve : List GaussRow → F64 × F64) (cuts : Nat → Cut) (cs : List Chunk) (input out : List Char)
    (rest : List (List Char)) (hout : nameEndsWith out ".csv" = true) (env : MmapEnv)
    (henv : env.input = some (streamBytes cs) ∧ env.writable = true ∧ env.memory = true)
    (hlen : 2 ≤ env.limit) (hw : ∀ c ∈ cs, c.WellFormed) (hn : ∀ c ∈ cs, c.NoLookAlike)
    (hs : ∀ hs ∈ seenHits (mmapOptions rest[0]?).tgdc cs, ∀ h ∈ hs, h.spidertime.toNat < 2 ^ 48)
    (fuel : Nat) (hfuel : cs.length ≤ fuel) (fault : Option Nat) (d : Disk) (old : Bytes)
    (hold : d out = some (.other old) ∨ (d out = none ∧ old = [])) :
    ∃ es d', List.Forall₂ (fun h e => eventsOf ⟨.gdc, mmapParams, solve⟩ h = .ok e)
        (seenHits (mmapOptions rest[0]?).tgdc cs) es ∧
      mmapMain solve cuts fuel true fault (input :: out :: rest) env d = .ok (some (d', .exit 0)) ∧
      (es.flatten = [] → d' = d) ∧
      (es.flatten ≠ [] → d' = Function.update d out (some (.other (old ++ asciiBytes ("X,Y,TOF (ns),Nhits, TOT\n".toList ++
        es.flatten.flatMap fun e => doubleText e.x ++ ',' :: doubleText e.y ++
          ',' :: doubleText (F64.mul (F64.mul e.tof (F64.ofRat 25)) (F64.ofRat 25)) ++ ',' :: natText e.nHits ++
          ',' :: doubleText e.tot ++ ['\n']))))) := by
  obtain ⟨s, es, h1, h2, h3, h4⟩ := mmapMain_stream solve cuts cs (input :: out :: rest) (by simp) env henv hlen hw hn hs fuel
    hfuel
  by_cases he : es.flatten = []
  · refine ⟨es, d, h1, ?_, fun _ => rfl, fun h => absurd he h⟩
    rw [h4]
    unfold mmapFinish
    simp only [List.getElem?_cons_succ, List.getElem?_cons_zero]
    rw [if_pos (h3.mpr he)]
    rfl
  · have hg : gathered s.vectors ≠ [] := by
      unfold gathered
      rw [h2]
      simpa using he
    refine ⟨es, _, h1, ?_, fun h => absurd h he, fun _ => rfl⟩
    rw [h4]
    unfold mmapFinish
    simp only [List.getElem?_cons_succ, List.getElem?_cons_zero]
    rw [if_neg (fun h => he (h3.mp h)), hout]
    unfold saveCsv
    rw [if_neg hg]
    have htext : csvText (gathered s.vectors) = "X,Y,TOF (ns),Nhits, TOT\n".toList ++
        es.flatten.flatMap fun e => doubleText e.x ++ ',' :: doubleText e.y ++
          ',' :: doubleText (F64.mul (F64.mul e.tof (F64.ofRat 25)) (F64.ofRat 25)) ++ ',' :: natText e.nHits ++
          ',' :: doubleText e.tot ++ ['\n'] := by
      unfold csvText gathered
      rw [h2, List.map_map, List.flatMap_def]
      congr 1
    rcases hold with ho | ⟨ho, rfl⟩
    · rw [ho, htext]
      rfl
    · rw [ho, htext, List.nil_append]
      rfl

/-- C86 is false for a text file written twice: the second table follows the first, header line and all. -/
theorem c86_false_csv : fileOf "e.csv" (exRun exMapped "e.csv" "tgdc" fun p =>
      if p = "e.csv".toList then fileOf "e.csv" (exRun exMapped "e.csv" "tgdc" fun _ => none) else none) =
    some (.other (asciiBytes
      "X,Y,TOF (ns),Nhits, TOT\n279,24,3125,1,10\n391,24,15625,1,10\nX,Y,TOF (ns),Nhits, TOT\n279,24,3125,1,10\n391,24,15625,1,10\n".toList)) := by
  decide +kernel

/-- C86: whatever the input and whatever goes wrong, only the file named by the second argument can change. -/
theorem c86_others (solve : List GaussRow → F64 × F64) (cuts : Nat → Cut) (fuel : Nat) (canOpen : Bool) (fault : Option Nat)
    (args : List (List Char)) (env : MmapEnv) (d d' : Disk) (e : MmapEnd)
    (h : mmapMain solve cuts fuel canOpen fault args env d = .ok (some (d', e))) (p : Path) (hp : args[1]? ≠ some p) :
    d' p = d p := by
  unfold mmapMain at h
  split_ifs at h with ha
  · cases h; rfl
  · simp only [bind, Res.bind] at h
    cases hi : mmapInput (mmapOptions args[2]?) env with
    | ub u => rw [hi] at h; cases h
    | throws m => rw [hi] at h; cases h
    | ok b =>
      rw [hi] at h
      cases b with
      | none => cases h; rfl
      | some buf =>
        simp only at h
        cases hl : mmapLoop solve (mmapOptions args[2]?) cuts buf env.limit fuel MmapState.start with
        | ub u => rw [hl] at h; cases h
        | throws m => rw [hl] at h; cases h
        | ok b =>
          rw [hl] at h
          cases b with
          | none => cases h
          | some s =>
            simp only at h
            cases hf : mmapFinish canOpen fault args[1]? s d with
            | ub u => rw [hf] at h; cases h
            | throws m => rw [hf] at h; cases h
            | ok r =>
              rw [hf] at h
              cases h
              cases ho : args[1]? with
              | none => rw [ho] at hf; cases hf; rfl
              | some out =>
                have hne : p ≠ out := fun he => hp (by rw [ho, he])
                rw [ho] at hf
                unfold mmapFinish at hf
                simp only at hf
                split_ifs at hf with h1 h2 h3 h4
                · cases hf; rfl
                · cases hf
                  unfold saveCsv
                  split_ifs
                  · rfl
                  · rfl
                  · exact Function.update_of_ne hne _ _
                · cases hf
                  unfold saveCsv
                  split_ifs
                  · rfl
                  · rfl
                  · exact Function.update_of_ne hne _ _
                · unfold saveBin at hf
                  split_ifs at hf
                  · cases hf; rfl
                  · cases hf; rfl
                  · cases hm : (gathered s.vectors).mapM binRecord with
                    | none => rw [hm] at hf; cases hf
                    | some rs =>
                      rw [hm] at hf
                      cases hf
                      exact Function.update_of_ne hne _ _
                · cases hs : saveMmapH5 fault out (gathered s.vectors) d with
                  | mk a b =>
                    rw [hs] at hf
                    have ha : a p = d p := by
                      have : a = (saveMmapH5 fault out (gathered s.vectors) d).1 := by rw [hs]
                      rw [this]
                      unfold saveMmapH5 plainSave
                      split_ifs
                      · rfl
                      · rfl
                      · exact Function.update_of_ne hne _ _
                      · exact Function.update_of_ne hne _ _
                    cases b <;> (cases hf; exact ha)
                · cases hf; rfl

/-- How a run ends. -/
def endOf (r : Res (Option (Disk × MmapEnd))) : Option MmapEnd :=
  match r with
  | .ok (some (_, e)) => some e
  | _ => none

/-- C86 is false for other endings: two neutrons, nothing is written and the exit code is 0. -/
theorem c86_false_ending : fileOf "e.hdf5" (exRun exMapped "e.hdf5" "tgdc" fun _ => none) = none ∧
    endOf (exRun exMapped "e.hdf5" "tgdc" fun _ => none) = some (.exit 0) := by
  decide +kernel

/-! ## C87: the binary file -/

theorem binCoord_value {a : ℚ} (h0 : 0 ≤ a) (h1 : a ≤ 2 ^ 20) :
    binCoord (.fin a) = toU16? (.fin (rndQ (rndQ (a * 65535) / 512))) := by
  have c1 : F64.ofRat 65535 = .fin 65535 := by
    have := F64.ofRat_int (n := 65535) (by norm_num); exact_mod_cast this
  have c2 : F64.ofRat 512 = .fin 512 := by
    have := F64.ofRat_int (n := 512) (by norm_num); exact_mod_cast this
  have hz : rndQ 0 = 0 := by have := rndQ_int (n := 0) (by norm_num); exact_mod_cast this
  have hb : rndQ (2 ^ 36) = 2 ^ 36 := by have := rndQ_int (n := 2 ^ 36) (by norm_num); exact_mod_cast this
  have l1 : 0 ≤ rndQ (a * 65535) := by rw [← hz]; exact rndQ_mono (by positivity)
  have l2 : rndQ (a * 65535) ≤ 2 ^ 36 := by
    rw [← hb]; exact rndQ_mono (by nlinarith)
  have big : (2 : ℚ) ^ 36 ≤ 2 ^ (1000 : ℤ) := by
    rw [show (2 : ℚ) ^ 36 = 2 ^ (36 : ℤ) by norm_num]
    exact zpow_le_zpow_right₀ (by norm_num) (by norm_num)
  unfold binCoord
  rw [c1, c2]
  have m1 : F64.mul (.fin a) (.fin 65535) = .fin (rndQ (a * 65535)) := by
    show F64.ofRat (a * 65535) = _
    apply F64.ofRat_fin
    rw [abs_of_nonneg (by positivity)]
    refine le_trans ?_ big
    nlinarith
  rw [m1]
  have m2 : F64.div (.fin (rndQ (a * 65535))) (.fin 512) = .fin (rndQ (rndQ (a * 65535) / 512)) := by
    unfold F64.div
    simp only
    rw [if_neg (by norm_num)]
    apply F64.ofRat_fin
    rw [abs_of_nonneg (by positivity)]
    refine le_trans ?_ big
    rw [div_le_iff₀ (by norm_num)]
    linarith
  rw [m2]

/-- C87, where the coordinate can be written: up to 512 the result is a 16-bit number, from 513 on the conversion is
undefined. -/
theorem c87_coordinate (a : ℚ) (h0 : 0 ≤ a) (h1 : a ≤ 2 ^ 20) :
    (a ≤ 512 → ∃ k, binCoord (.fin a) = some k ∧ k ≤ 65535) ∧ (513 ≤ a → binCoord (.fin a) = none) := by
  rw [binCoord_value h0 h1]
  have hz : rndQ 0 = 0 := by have := rndQ_int (n := 0) (by norm_num); exact_mod_cast this
  constructor
  · intro h
    have e1 : rndQ (512 * 65535) = 512 * 65535 := by
      have := rndQ_int (n := 512 * 65535) (by norm_num); exact_mod_cast this
    have e2 : rndQ 65535 = 65535 := by have := rndQ_int (n := 65535) (by norm_num); exact_mod_cast this
    have l1 : rndQ (a * 65535) ≤ 512 * 65535 := by rw [← e1]; exact rndQ_mono (by nlinarith)
    have l0 : 0 ≤ rndQ (a * 65535) := by rw [← hz]; exact rndQ_mono (by positivity)
    have m1 : rndQ (rndQ (a * 65535) / 512) ≤ 65535 := by
      rw [← e2]
      exact rndQ_mono (by rw [div_le_iff₀ (by norm_num), e2]; linarith)
    have m0 : 0 ≤ rndQ (rndQ (a * 65535) / 512) := by rw [← hz]; exact rndQ_mono (by positivity)
    refine ⟨_, if_pos ⟨by linarith, by linarith⟩, ?_⟩
    unfold F64.truncQ
    rw [if_pos m0]
    have : ⌊rndQ (rndQ (a * 65535) / 512)⌋ ≤ 65535 := by
      have := Int.floor_le (rndQ (rndQ (a * 65535) / 512))
      exact_mod_cast this.trans m1
    omega
  · intro h
    have e1 : rndQ (513 * 65535) = 513 * 65535 := by
      have := rndQ_int (n := 513 * 65535) (by norm_num); exact_mod_cast this
    have e2 : rndQ 65536 = 65536 := by have := rndQ_int (n := 65536) (by norm_num); exact_mod_cast this
    have l1 : 513 * 65535 ≤ rndQ (a * 65535) := by rw [← e1]; exact rndQ_mono (by nlinarith)
    have m1 : 65536 ≤ rndQ (rndQ (a * 65535) / 512) := by
      rw [← e2]
      refine rndQ_mono ?_
      rw [le_div_iff₀ (by norm_num)]
      linarith
    unfold toU16?
    exact if_neg (fun h => absurd h.2 (by linarith))

/-- C87, exactly where the coordinate can be written: below 2^25/65535, half a unit of rounding earlier; that is 512.0078. -/
theorem c87_coordinate_iff (a : ℚ) (h0 : 0 ≤ a) (h1 : a ≤ 2 ^ 20) :
    (∃ k, binCoord (.fin a) = some k) ↔ a * 65535 < 2 ^ 25 - 1 / 2 ^ 29 := by
  rw [binCoord_value h0 h1]
  have hz : rndQ 0 = 0 := by have := rndQ_int (n := 0) (by norm_num); exact_mod_cast this
  have e2 : rndQ 65536 = 65536 := by have := rndQ_int (n := 65536) (by norm_num); exact_mod_cast this
  have ep : rndQ (2 ^ 25) = 2 ^ 25 := by have := rndQ_int (n := 2 ^ 25) (by norm_num); exact_mod_cast this
  have eb : rndQ (2 ^ 25 - 1 / 2 ^ 28) = 2 ^ 25 - 1 / 2 ^ 28 := rndQ_of_grid (2 ^ 53 - 1) (-28) (by norm_num) (by norm_num) (by norm_num)
  have eh : rndQ (2 ^ 16 - 1 / 2 ^ 37) = 2 ^ 16 - 1 / 2 ^ 37 := rndQ_of_grid (2 ^ 53 - 1) (-37) (by norm_num) (by norm_num) (by norm_num)
  have et : rndQ (2 ^ 25 - 1 / 2 ^ 29) = 2 ^ 25 := by
    rw [rndQ_eval 24 (by norm_num) (by norm_num) (by norm_num)]
    have : roundNE ((2 ^ 25 - 1 / 2 ^ 29) / 2 ^ ((24 : ℤ) - 52)) = 2 ^ 53 := by decide +kernel
    rw [this]
    norm_num
  constructor
  · rintro ⟨k, hk⟩
    by_contra hc
    have l1 : 2 ^ 25 ≤ rndQ (a * 65535) := by rw [← et]; exact rndQ_mono (not_lt.mp hc)
    have m1 : 65536 ≤ rndQ (rndQ (a * 65535) / 512) := by
      rw [← e2]
      refine rndQ_mono ?_
      rw [le_div_iff₀ (by norm_num)]
      linarith
    have hn : toU16? (.fin (rndQ (rndQ (a * 65535) / 512))) = none := by
      unfold toU16?
      exact if_neg (fun h => absurd h.2 (by linarith))
    rw [hn] at hk
    cases hk
  · intro h
    have l0 : 0 ≤ rndQ (a * 65535) := by rw [← hz]; exact rndQ_mono (by positivity)
    have l1 : rndQ (a * 65535) ≤ 2 ^ 25 - 1 / 2 ^ 28 := by
      by_cases hb : 2 ^ 24 ≤ a * 65535
      · rw [rndQ_eval 24 (by norm_num) (by exact_mod_cast hb) (by norm_num at h ⊢; linarith)]
        have hr := abs_le.mp (abs_roundNE_sub_le (a * 65535 / 2 ^ ((24 : ℤ) - 52)))
        have hlt : (roundNE (a * 65535 / 2 ^ ((24 : ℤ) - 52)) : ℚ) < 2 ^ 53 := by
          have h2 := hr.2
          have e : a * 65535 / 2 ^ ((24 : ℤ) - 52) = a * 65535 * 2 ^ 28 := by
            rw [show ((2 : ℚ) ^ ((24 : ℤ) - 52)) = 1 / 2 ^ 28 by norm_num, div_div_eq_mul_div, div_one]
          rw [e] at h2 ⊢
          norm_num at h h2 ⊢
          linarith
        have hle : roundNE (a * 65535 / 2 ^ ((24 : ℤ) - 52)) ≤ 2 ^ 53 - 1 := by
          have : roundNE (a * 65535 / 2 ^ ((24 : ℤ) - 52)) < 2 ^ 53 := by exact_mod_cast hlt
          omega
        have hle' : (roundNE (a * 65535 / 2 ^ ((24 : ℤ) - 52)) : ℚ) ≤ 2 ^ 53 - 1 := by exact_mod_cast hle
        calc _ ≤ (2 ^ 53 - 1 : ℚ) * 2 ^ ((24 : ℤ) - 52) := mul_le_mul_of_nonneg_right hle' (by norm_num)
          _ = _ := by norm_num
      · rw [← eb]
        exact rndQ_mono (by norm_num at hb ⊢; linarith)
    have m1 : rndQ (rndQ (a * 65535) / 512) ≤ 2 ^ 16 - 1 / 2 ^ 37 := by
      rw [← eh]
      refine rndQ_mono ?_
      rw [div_le_iff₀ (by norm_num)]
      norm_num at l1 ⊢
      linarith
    have m0 : 0 ≤ rndQ (rndQ (a * 65535) / 512) := by rw [← hz]; exact rndQ_mono (by positivity)
    unfold toU16?
    exact ⟨_, if_pos ⟨by linarith, by norm_num at m1; linarith⟩⟩

example : (∃ k, binCoord (.fin (512 + 1 / 2 ^ 7)) = some k) ∧ ¬ ∃ k, binCoord (.fin (512 + 1 / 2 ^ 6)) = some k :=
  ⟨(c87_coordinate_iff _ (by norm_num) (by norm_num)).mpr (by norm_num),
   fun h => absurd ((c87_coordinate_iff _ (by norm_num) (by norm_num)).mp h) (by norm_num)⟩

/-- C87: one event at 512.0078 or beyond, in either direction, and the program is undefined. -/
theorem c87_undefined (path : Path) (es : List Neutron) (d : Disk)
    (h : ∃ e ∈ es, ∃ a : ℚ, (e.x = .fin a ∨ e.y = .fin a) ∧ 2 ^ 25 - 1 / 2 ^ 29 ≤ a * 65535 ∧ a ≤ 2 ^ 20) :
    saveBin true path es d = .ub .floatToInt := by
  obtain ⟨e, he, hc⟩ := h
  have hr : binRecord e = none := by
    unfold binRecord
    obtain ⟨a, hx, h1, h2⟩ := hc
    have hnone : binCoord (.fin a) = none := by
      cases hb : binCoord (.fin a) with
      | none => rfl
      | some k => exact absurd ((c87_coordinate_iff a (by norm_num at h1; linarith) h2).mp ⟨k, hb⟩) (not_lt.mpr h1)
    rcases hx with hx | hx
    · rw [hx, hnone]; rfl
    · rw [hx, hnone]
      cases binCoord e.x <;> rfl
  have hm : es.mapM binRecord = none := by
    induction es with
    | nil => simp at he
    | cons f es ih =>
      rw [List.mapM_cons]
      rcases List.mem_cons.mp he with rfl | he
      · rw [hr]; rfl
      · cases binRecord f with
        | none => rfl
        | some r => simp [ih he]
  unfold saveBin
  rw [if_neg (List.ne_nil_of_mem he), hm]
  rfl

/-- A chunk with one hit. -/
def exOne (addr ticks : Nat) : List Chunk :=
  [⟨0x0020000033585054#64, [0x4400000000010000#64, 0x4500000000000000#64, 0x6F00000000005000#64, exPacket addr ticks]⟩]

/-- The undefined behaviour of a run. -/
def undefinedOf {α : Type} (r : Res α) : Option UB :=
  match r with
  | .ub u => some u
  | _ => none

/-- C87 is false: a hit in column 514, and the program is undefined. -/
theorem c87_false_undefined : undefinedOf (exRun (exOne 0xFE00 10) "e.bin" "tgdc" fun _ => none) = some .floatToInt := by
  decide +kernel

/-- C87 is false: two different neutrons, the same file. -/
theorem c87_false_same :
    fileOf "e.bin" (exRun (exOne 0x1001 157) "e.bin" "tgdc" fun _ => none) =
        some (.other (asciiBytes "3532712795000110".toList)) ∧
      fileOf "e.bin" (exRun (exOne 0x1001 157) "e.bin" "tgdc" fun _ => none) =
        fileOf "e.bin" (exRun (exOne 0x1012 13) "e.bin" "tgdc" fun _ => none) ∧
      fileOf "e.h5" (exRun (exOne 0x1001 157) "e.h5" "tgdc" fun _ => none) ≠
        fileOf "e.h5" (exRun (exOne 0x1012 13) "e.h5" "tgdc" fun _ => none) := by
  decide +kernel

/-! ## C88: the pulse rate -/

theorem ms_mono (l : F64) (s t : Nat) (hst : s ≤ t) (ht : t < 2 ^ 32)
    (h : F64.lt l (F64.mul (.fin (25 * s)) (F64.ofRat (1 / 1000000))) = true) :
    F64.lt l (F64.mul (.fin (25 * t)) (F64.ofRat (1 / 1000000))) = true := by
  have hz : rndQ 0 = 0 := by have := rndQ_int (n := 0) (by norm_num); exact_mod_cast this
  have h1 : rndQ 1 = 1 := by have := rndQ_int (n := 1) (by norm_num); exact_mod_cast this
  have c0 : 0 ≤ rndQ (1 / 1000000) := by rw [← hz]; exact rndQ_mono (by norm_num)
  have c1 : rndQ (1 / 1000000) ≤ 1 := by rw [← h1]; exact rndQ_mono (by rw [h1]; norm_num)
  have big : (2 : ℚ) ^ 40 ≤ 2 ^ (1000 : ℤ) := by
    rw [show (2 : ℚ) ^ 40 = 2 ^ (40 : ℤ) by norm_num]
    exact zpow_le_zpow_right₀ (by norm_num) (by norm_num)
  have hc : F64.ofRat (1 / 1000000) = .fin (rndQ (1 / 1000000)) := by
    apply F64.ofRat_fin
    exact le_trans (by rw [abs_of_nonneg (by norm_num)]; norm_num) big
  have hm : ∀ k : Nat, k < 2 ^ 32 → F64.mul (.fin (25 * k)) (F64.ofRat (1 / 1000000)) =
      .fin (rndQ (25 * k * rndQ (1 / 1000000))) := by
    intro k hk
    rw [hc]
    show F64.ofRat _ = _
    apply F64.ofRat_fin
    have hk' : (k : ℚ) ≤ 2 ^ 32 := by exact_mod_cast hk.le
    have hk0 : (0 : ℚ) ≤ 25 * k := mul_nonneg (by norm_num) (Nat.cast_nonneg k)
    rw [abs_of_nonneg (mul_nonneg hk0 c0)]
    refine le_trans ?_ big
    refine (mul_le_of_le_one_right hk0 c1).trans ?_
    linarith
  rw [hm s (by omega)] at h
  rw [hm t ht]
  have hle : rndQ (25 * s * rndQ (1 / 1000000)) ≤ rndQ (25 * t * rndQ (1 / 1000000)) := by
    apply rndQ_mono
    apply mul_le_mul_of_nonneg_right _ c0
    have : (s : ℚ) ≤ t := by exact_mod_cast hst
    linarith
  generalize rndQ (25 * s * rndQ (1 / 1000000)) = a at *
  generalize rndQ (25 * t * rndQ (1 / 1000000)) = b at *
  cases l with
  | nan => exact h
  | inf n => exact h
  | fin q =>
    simp only [F64.lt, decide_eq_true_eq] at h ⊢
    exact lt_of_lt_of_le h hle

theorem badTof_mono (rate s t : Nat) (hst : s ≤ t) (ht : t < 2 ^ 32) (h : badTof rate (.fin (25 * s)) = true) :
    badTof rate (.fin (25 * t)) = true := ms_mono _ s t hst ht h

/-- C88, what is counted: the times of flight above a thousandth of the period, because milliseconds are compared with seconds. -/
theorem c88_exact (rate : Nat) (hr : rate ∈ pulseRates.map Prod.snd) (h : Hit) (t : U32) (ht : h.tof = some t) :
    h.tofNs.map (badTof rate) = some true ↔ (10 ^ 6 : ℚ) / rate < 25 * t.toNat := by
  have hpos : 0 < rate := by
    revert rate
    decide
  have hb : badTof rate (.fin (25 * (40000 / rate : Nat))) = false ∧
      badTof rate (.fin (25 * (40000 / rate + 1 : Nat))) = true := by
    clear hpos
    revert rate
    decide +kernel
  have hpos' : (0 : ℚ) < rate := by exact_mod_cast hpos
  rw [tofNs_exact h t ht, Option.map_some, Option.some.injEq]
  have key : (10 ^ 6 : ℚ) / rate < 25 * t.toNat ↔ 40000 / rate < t.toNat := by
    rw [Nat.div_lt_iff_lt_mul hpos, div_lt_iff₀ hpos']
    constructor
    · intro h
      have : (40000 : ℚ) < t.toNat * rate := by linarith
      exact_mod_cast this
    · intro h
      have : (40000 : ℚ) < t.toNat * rate := by exact_mod_cast h
      linarith
  rw [key]
  constructor
  · intro hbad
    by_contra hle
    have := badTof_mono rate t.toNat (40000 / rate) (by omega) (by
      have := Nat.div_le_self 40000 rate
      omega) hbad
    rw [hb.1] at this
    exact absurd this (by simp)
  · intro hlt
    exact badTof_mono rate _ t.toNat hlt t.isLt hb.2

/-- C88: the hits later than the period are all among those counted.  Missing: that only they are (`c88_false`). -/
theorem c88_partial (solve : List GaussRow → F64 × F64) (o : MmapOptions) (cuts : Nat → Cut) (cs : List Chunk) (len : Nat)
    (hlen : 2 ≤ len) (hw : ∀ c ∈ cs, c.WellFormed) (hn : ∀ c ∈ cs, c.NoLookAlike)
    (hs : ∀ hs ∈ seenHits o.tgdc cs, ∀ h ∈ hs, h.spidertime.toNat < 2 ^ 48) (fuel : Nat) (hfuel : cs.length ≤ fuel)
    (ho : o.pulse ∈ pulseRates.map Prod.snd) [DecidablePred (LaterThanPeriod o.pulse)]
    [DecidablePred (LaterThanPeriod (1000 * o.pulse))] :
    ∃ s, mmapLoop solve o cuts (streamBytes cs) len fuel MmapState.start = .ok (some s) ∧
      s.bad = (seenHits o.tgdc cs).flatten.countP (fun h => LaterThanPeriod (1000 * o.pulse) h) ∧
      (seenHits o.tgdc cs).flatten.countP (fun h => LaterThanPeriod o.pulse h) ≤ s.bad := by
  obtain ⟨s, es, h1, -, -, -, h5⟩ := c85_events solve o cuts cs len hlen hw hn hs fuel hfuel
  have hpos : 0 < o.pulse := by
    generalize o.pulse = r at ho
    revert r
    decide
  have hpos' : (0 : ℚ) < o.pulse := by exact_mod_cast hpos
  have hbad : s.bad = (seenHits o.tgdc cs).flatten.countP (fun h => LaterThanPeriod (1000 * o.pulse) h) := by
    rw [h5, if_neg (by omega)]
    apply List.countP_congr
    intro h hh
    obtain ⟨l, hl, hhl⟩ := List.mem_flatten.mp hh
    obtain ⟨t, ht⟩ := Option.ne_none_iff_exists'.mp (seenHits_defined o.tgdc cs hw l hl h hhl)
    rw [decide_eq_true_eq, decide_eq_true_eq, c88_exact o.pulse ho h t ht]
    have e : ((10 : ℚ) ^ 9) / ((1000 * o.pulse : Nat) : ℚ) = 10 ^ 6 / o.pulse := by
      push_cast
      field_simp
      norm_num
    unfold LaterThanPeriod
    rw [e]
    exact ⟨fun h => ⟨t, ht, h⟩, fun ⟨u, hu, h⟩ => by rw [ht] at hu; cases hu; exact h⟩
  refine ⟨s, h1, hbad, ?_⟩
  rw [hbad]
  apply List.countP_mono_left
  intro h _ hl
  rw [decide_eq_true_eq] at *
  obtain ⟨t, ht, hlt⟩ := hl
  refine ⟨t, ht, lt_trans ?_ hlt⟩
  apply div_lt_div_of_pos_left (by norm_num) hpos'
  push_cast
  linarith

theorem exOne_tof : ((seenHits true (exOne 0x1001 672)).map fun l => l.map fun h => h.tof) = [[some 667#32]] := by
  decide +kernel

/-- C88 is false: a hit 16.7 µs after the pulse counts as later than the period at 60 Hz, 16.7 ms. -/
theorem c88_false : MmapState.summary (mmapLoop noSolve (mmapOptions (some "tgdc,60hz".toList)) (fun _ => .whole)
      (streamBytes (exOne 0x1001 672)) 100000 1 MmapState.start) = some (1, 1, 1, 1) ∧
    ∀ l ∈ seenHits true (exOne 0x1001 672), ∀ h ∈ l, h.tof = some 667#32 ∧ ¬ LaterThanPeriod 60 h := by
  have h : ∀ l ∈ seenHits true (exOne 0x1001 672), ∀ h ∈ l, h.tof = some 667#32 := by
    intro l hl h hh
    have hm : h.tof ∈ ((seenHits true (exOne 0x1001 672)).map fun l => l.map fun h => h.tof).flatten :=
      List.mem_flatten.mpr ⟨_, List.mem_map_of_mem hl, List.mem_map_of_mem hh⟩
    rw [exOne_tof] at hm
    simpa using hm
  refine ⟨by decide +kernel, fun l hl g hg => ⟨h l hl g hg, ?_⟩⟩
  rintro ⟨t, ht, hlt⟩
  rw [h l hl g hg] at ht
  cases ht
  norm_num at hlt

/-- C88, the rate in force: 0 if none is named, else the highest of those named. -/
theorem c88_rate (a : List Char) :
    ((∀ p ∈ pulseRates, strstr a p.1 = false) → (mmapOptions (some a)).pulse = 0) ∧
    ((∃ p ∈ pulseRates, strstr a p.1 = true) →
      (∃ p ∈ pulseRates, strstr a p.1 = true ∧ (mmapOptions (some a)).pulse = p.2) ∧
      ∀ p ∈ pulseRates, strstr a p.1 = true → p.2 ≤ (mmapOptions (some a)).pulse) := by
  simp only [mmapOptions, pulseRates, List.foldl_cons, List.foldl_nil, List.mem_cons, List.not_mem_nil, or_false,
    forall_eq_or_imp, forall_eq, exists_eq_or_imp, exists_eq_left]
  generalize strstr a "1hz" = b1
  generalize strstr a "10hz" = b2
  generalize strstr a "15hz" = b3
  generalize strstr a "30hz" = b4
  generalize strstr a "45hz" = b5
  generalize strstr a "60hz" = b6
  cases b6
  · cases b5
    · cases b4
      · cases b3
        · cases b2 <;> cases b1 <;> simp
        · simp
      · simp
    · simp
  · simp

example : (mmapOptions (some "tgdc,60hz".toList)).pulse = 60 ∧ (mmapOptions (some "mmap".toList)).pulse = 0 ∧
    (mmapOptions (some "10hz,1hz".toList)).pulse = 10 := by decide +kernel

/-- C85, the options: each is on exactly if its name occurs in the third argument; without one all are off. -/
theorem c85_options (a : List Char) :
    ((mmapOptions (some a)).tgdc = true ↔ ['t', 'g', 'd', 'c'] <:+: a) ∧ ((mmapOptions (some a)).mmap = true ↔ ['m', 'm', 'a', 'p'] <:+: a) ∧
    ((mmapOptions (some a)).tbb = true ↔ ['t', 'b', 'b'] <:+: a) ∧
    ((mmapOptions (some a)).debug = true ↔ ['d', 'e', 'b', 'u', 'g'] <:+: a) ∧
    (mmapOptions none).tgdc = false ∧ (mmapOptions none).mmap = false ∧ (mmapOptions none).tbb = false ∧
    (mmapOptions none).debug = false ∧ (mmapOptions none).pulse = 0 := by
  simp [mmapOptions, strstr]

example : (mmapOptions (some "gdc".toList)).tgdc = false ∧ (mmapOptions (some "tbb,tgdc".toList)).tgdc = true := by decide +kernel

end Verif.Props
