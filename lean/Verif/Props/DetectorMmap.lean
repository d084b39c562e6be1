import Verif.Props.Bench
import Verif.Props.Detector
import Verif.Spec.DetectorMmap

/-!
# C105: the memory-mapped program finds the neutrons of a detector
-/

namespace Verif.Props

open Verif Verif.Spec

theorem mmap_streams {carried : Bool} {rs : List Readout} (hok : ∀ r ∈ rs, r.Ok) (h : DatedTimely carried rs) :
    (∀ k ∈ rs.map Readout.chunk, k.WellFormed) ∧ (∀ k ∈ rs.map Readout.chunk, k.NoLookAlike) ∧
      seenHits carried (rs.map Readout.chunk) = datedReadouts carried rs ∧
      ∀ hs ∈ datedReadouts carried rs, ∀ x ∈ hs, x.spidertime.toNat < 2 ^ 48 := by
  cases carried with
  | true =>
    have ht : TimelyFile .gdc ⟨0, 0⟩ rs := h
    obtain ⟨f1, f2, f3⟩ := file_streams hok ht
    exact ⟨f1, f2, f3, trueReadouts_earlyG rs ⟨0, 0⟩ (by norm_num) ht⟩
  | false =>
    have h' : ∀ r ∈ rs, AllTimelyG ⟨0, 0⟩ r.signals := h
    have each : ∀ r ∈ rs, TimelyFile .gdc ⟨0, 0⟩ [r] := fun r hr => by
      show AllTimelyG _ _
      simpa using h' r hr
    have hone : ∀ r ∈ rs, r.chunk.WellFormed ∧ r.chunk.NoLookAlike ∧
        chunkHits .gdc ⟨0, 0, 0⟩ [r.chunk] = [trueHits true r.chip ⟨0, 0⟩ r.signals] ∧
        ∀ x ∈ trueHits true r.chip ⟨0, 0⟩ r.signals, x.spidertime.toNat < 2 ^ 48 := by
      intro r hr
      have ok1 : ∀ r' ∈ [r], r'.Ok := by simpa using hok r hr
      obtain ⟨f1, f2, f3⟩ := file_streams ok1 (each r hr)
      refine ⟨f1 _ (by simp), f2 _ (by simp), f3, ?_⟩
      exact trueReadouts_earlyG [r] ⟨0, 0⟩ (by norm_num) (each r hr) _ (by simp [trueReadouts])
    refine ⟨?_, ?_, ?_, ?_⟩
    · intro k hk
      obtain ⟨r, hr, rfl⟩ := List.mem_map.mp hk
      exact (hone r hr).1
    · intro k hk
      obtain ⟨r, hr, rfl⟩ := List.mem_map.mp hk
      exact (hone r hr).2.1
    · show (rs.map Readout.chunk).flatMap (fun k => chunkHits .gdc ⟨0, 0, 0⟩ [k]) = rs.map _
      clear h h' each hok
      induction rs with
      | nil => rfl
      | cons r rs ih =>
        rw [List.map_cons, List.flatMap_cons, (hone r (by simp)).2.2.1, ih fun r hr => hone r (by simp [hr])]
        rfl
    · intro hs hh x hx
      obtain ⟨r, hr, rfl⟩ := List.mem_map.mp (show hs ∈ rs.map _ from hh)
      exact (hone r hr).2.2.2 x hx

theorem forall₂_unique {α β : Type} {f : α → Res β} {l : List α} {a b : List β} (h1 : List.Forall₂ (fun x y => f x = .ok y) l a)
    (h2 : List.Forall₂ (fun x y => f x = .ok y) l b) : a = b := by
  induction h1 generalizing b with
  | nil => cases h2; rfl
  | cons hx hxs ih =>
    cases h2 with
    | cons hy hys =>
      rw [hx] at hy
      injection hy with hy
      rw [hy, ih hys]

/-- C105, HDF5: with the option `tgdc` one event for every visible neutron of every readout, made of the true hits; without the option of
the true hits that the clocks and triggers of the same readout date.  Whatever the scheduler does.  Missing: the time of flight in ns, which
is written 25 times too long (`c86_tof`), and neutrons with hits in two readouts, which count twice. -/
theorem c105_events_partial (solve : List GaussRow → F64 × F64) (cuts : Nat → Cut) (rs : List Readout) (hok : ∀ r ∈ rs, r.Ok)
    (input out : List Char) (rest : List (List Char)) (hout : nameEndsWith out ".h5" = true)
    (ht : DatedTimely (mmapOptions rest[0]?).tgdc rs) (env : MmapEnv)
    (henv : env.input = some (detectorFile rs) ∧ env.writable = true ∧ env.memory = true) (hlen : 2 ≤ env.limit)
    (fuel : Nat) (hfuel : rs.length ≤ fuel) (canOpen : Bool) (d : Disk) (neutron : List (List Int))
    (hres : List.Forall₂ (Resolved 75 5) (datedReadouts (mmapOptions rest[0]?).tgdc rs) neutron) :
    ∃ es d', List.Forall₂ (IsEventOf 1)
        (List.zipWith (visible 1) (datedReadouts (mmapOptions rest[0]?).tgdc rs) neutron).flatten es ∧
      mmapMain solve cuts fuel canOpen none (input :: out :: rest) env d = .ok (some (d', .exit 0)) ∧
      (es = [] → d' = d) ∧
      (es ≠ [] → d' = Function.update d out (some (.h5 [("neutrons".toList,
        [(['x'], .doubles (es.map fun e => e.x)), (['y'], .doubles (es.map fun e => e.y)),
         ("tof".toList, .doubles (es.map fun e => F64.mul (F64.mul e.tof (F64.ofRat 25)) (F64.ofRat 25))),
         ("nHits".toList, .ints (es.map fun e => (e.nHits : Int))),
         ("tot".toList, .doubles (es.map fun e => e.tot))])]))) := by
  obtain ⟨f1, f2, f3, f4⟩ := mmap_streams hok ht
  rw [← f3] at hres f4 ⊢
  obtain ⟨es, d', h1, h2, h3, h4⟩ := c86_h5_partial solve cuts (rs.map Readout.chunk) input out rest hout env henv hlen f1 f2 f4 fuel
    (by simpa using hfuel) canOpen d
  obtain ⟨s, es', k1, k2, k3, -⟩ := c85_events solve (mmapOptions rest[0]?) cuts (rs.map Readout.chunk) env.limit hlen f1 f2 f4 fuel
    (by simpa using hfuel)
  obtain ⟨s', l1, l2⟩ := c85_neutrons solve (mmapOptions rest[0]?) cuts (rs.map Readout.chunk) env.limit hlen f1 f2 f4 fuel
    (by simpa using hfuel) neutron hres
  rw [k1] at l1
  injection l1 with l1
  injection l1 with l1
  rw [← l1, k3, forall₂_unique k2 h1] at l2
  exact ⟨es.flatten, d', l2, h2, h3, h4⟩

/-- C105, the hits and those that count as bad.  Missing: bad are those longer than a thousandth of the period (`c88_false`). -/
theorem c105_bad_partial (solve : List GaussRow → F64 × F64) (o : MmapOptions) (cuts : Nat → Cut) (rs : List Readout)
    (hok : ∀ r ∈ rs, r.Ok) (ht : DatedTimely o.tgdc rs) (len : Nat) (hlen : 2 ≤ len) (fuel : Nat) (hfuel : rs.length ≤ fuel)
    (ho : o.pulse ∈ pulseRates.map Prod.snd) [DecidablePred (LaterThanPeriod o.pulse)] [DecidablePred (LaterThanPeriod (1000 * o.pulse))] :
    ∃ s, mmapLoop solve o cuts (detectorFile rs) len fuel MmapState.start = .ok (some s) ∧
      s.hits = (datedReadouts o.tgdc rs).flatten.length ∧
      s.bad = (datedReadouts o.tgdc rs).flatten.countP (fun h => LaterThanPeriod (1000 * o.pulse) h) ∧
      (datedReadouts o.tgdc rs).flatten.countP (fun h => LaterThanPeriod o.pulse h) ≤ s.bad := by
  obtain ⟨f1, f2, f3, f4⟩ := mmap_streams hok ht
  rw [← f3] at f4 ⊢
  obtain ⟨s, es', k1, -, -, k4, -⟩ := c85_events solve o cuts (rs.map Readout.chunk) len hlen f1 f2 f4 fuel (by simpa using hfuel)
  obtain ⟨s', l1, l2, l3⟩ := c88_partial solve o cuts (rs.map Readout.chunk) len hlen f1 f2 f4 fuel (by simpa using hfuel) ho
  rw [k1] at l1
  injection l1 with l1
  injection l1 with l1
  rw [← l1] at l2 l3
  exact ⟨s, k1, k4, l2, l3⟩

/-- Without a clock or without a trigger there is nothing to find. -/
theorem c105_undated (chip : Int) (sigs : List Signal) (p : Past)
    (h : (p.clock = 0 ∧ ∀ s ∈ sigs, ∀ t, s ≠ .clock t) ∨ (p.trigger = 0 ∧ ∀ s ∈ sigs, ∀ t, s ≠ .trigger t)) :
    trueHits true chip p sigs = [] := by
  induction sigs generalizing p with
  | nil => rfl
  | cons s ss ih =>
    rw [trueHits, List.append_eq_nil_iff]
    constructor
    · cases s with
      | pixel t col row tot ftoa =>
        refine if_neg ?_
        rintro ⟨h1, h2⟩
        rcases h with h | h
        · exact h2 rfl h.1
        · exact h1 h.1
      | trigger => rfl
      | clock => rfl
    · refine ih _ ?_
      rcases h with ⟨h1, h2⟩ | ⟨h1, h2⟩
      · left
        refine ⟨?_, fun s hs => h2 s (by simp [hs])⟩
        cases s with
        | clock t => exact absurd rfl (h2 _ (by simp) t)
        | _ => exact h1
      · right
        refine ⟨?_, fun s hs => h2 s (by simp [hs])⟩
        cases s with
        | trigger t => exact absurd rfl (h2 _ (by simp) t)
        | _ => exact h1

/-- Every pixel after a clock and a trigger is found. -/
theorem trueHits_all (chip : Int) (sigs : List Signal) (p : Past) (h1 : p.clock ≠ 0) (h2 : p.trigger ≠ 0) (hs : AllTimelyG p sigs) :
    (trueHits true chip p sigs).length = pixelCount sigs := by
  induction sigs generalizing p with
  | nil => rfl
  | cons s ss ih =>
    obtain ⟨a1, a2⟩ := hs
    rw [trueHits, List.length_append]
    cases s with
    | pixel t col row tot ftoa =>
      rw [ih (p.after (.pixel t col row tot ftoa)) h1 h2 a2]
      simp only [Signal.hit, pixelCount, List.countP_cons]
      rw [if_pos ⟨h2, fun _ => h1⟩]
      simp only [List.length_cons, List.length_nil, if_true]
      omega
    | trigger t =>
      rw [ih (p.after (.trigger t)) h1 (by have := a1.1; simp only [Past.after]; omega) a2]
      simp [Signal.hit, pixelCount, List.countP_cons]
    | clock t =>
      rw [ih (p.after (.clock t)) (by have := a1.1; simp only [Past.after]; omega) h2 a2]
      simp [Signal.hit, pixelCount, List.countP_cons]

theorem after_ne {p : Past} {sigs : List Signal} (hs : AllTimelyG p sigs) (h1 : p.clock ≠ 0) (h2 : p.trigger ≠ 0) :
    (sigs.foldl Past.after p).clock ≠ 0 ∧ (sigs.foldl Past.after p).trigger ≠ 0 := by
  induction sigs generalizing p with
  | nil => exact ⟨h1, h2⟩
  | cons s ss ih =>
    refine ih hs.2 ?_ ?_
    · cases s with
      | clock t => have := hs.1.1; simp only [Past.after]; omega
      | _ => exact h1
    · cases s with
      | trigger t => have := hs.1.1; simp only [Past.after]; omega
      | _ => exact h2

theorem trueReadouts_all (rs : List Readout) (p : Past) (h1 : p.clock ≠ 0) (h2 : p.trigger ≠ 0)
    (hs : AllTimelyG p (rs.flatMap Readout.signals)) :
    (trueReadouts true p rs).flatten.length = pixelCount (rs.flatMap Readout.signals) := by
  induction rs generalizing p with
  | nil => rfl
  | cons r rs ih =>
    rw [List.flatMap_cons, allTimelyG_append] at hs
    obtain ⟨a, b⟩ := after_ne hs.1 h1 h2
    rw [trueReadouts, List.flatten_cons, List.length_append, trueHits_all _ _ _ h1 h2 hs.1, ih _ a b hs.2, List.flatMap_cons]
    simp [pixelCount, List.countP_append]

/-- C105, with `tgdc`: when the file starts with a clock and a trigger, the hits are as many as the pixels that fired. -/
theorem c105_complete (rs : List Readout) (hd : StartsDated rs) (ht : DatedTimely true rs) :
    (datedReadouts true rs).flatten.length = pixelCount (rs.flatMap Readout.signals) := by
  obtain ⟨chip, g, T, rest, rs', rfl⟩ := hd
  have hs : AllTimelyG ⟨0, 0⟩ _ := ht
  rw [List.flatMap_cons, allTimelyG_append] at hs
  obtain ⟨⟨a1, a2, a3⟩, b⟩ := hs
  have hg := a1.1
  have hT := a2.1
  have n1 : ((Past.after ⟨0, 0⟩ (.clock g)).after (.trigger T)).clock ≠ 0 := by simp only [Past.after]; omega
  have n2 : ((Past.after ⟨0, 0⟩ (.clock g)).after (.trigger T)).trigger ≠ 0 := by simp only [Past.after]; omega
  obtain ⟨c1, c2⟩ := after_ne a3 n1 n2
  show (trueReadouts true _ _).flatten.length = _
  have e := trueReadouts_all rs' _ c1 c2 b
  rw [trueReadouts, List.flatten_cons, List.length_append]
  simp only [List.foldl_cons, List.flatMap_cons] at e ⊢
  rw [e]
  rw [trueHits, trueHits, List.length_append, List.length_append, trueHits_all _ _ _ n1 n2 a3]
  simp [pixelCount, List.countP_append, Signal.hit, List.countP_cons]

/-- C105, without `tgdc`: a readout that has no clock or no trigger of its own gives nothing. -/
theorem c105_alone (rs : List Readout) (h : ∀ r ∈ rs, (∀ s ∈ r.signals, ∀ t, s ≠ .clock t) ∨ (∀ s ∈ r.signals, ∀ t, s ≠ .trigger t)) :
    (datedReadouts false rs).flatten = [] := by
  show (rs.map _).flatten = []
  rw [List.flatten_eq_nil_iff]
  intro l hl
  obtain ⟨r, hr, rfl⟩ := List.mem_map.mp hl
  refine c105_undated _ _ _ ?_
  rcases h r hr with h | h
  · exact Or.inl ⟨rfl, h⟩
  · exact Or.inr ⟨rfl, h⟩

/-- The example of two chips meets the conditions, with the option and without. -/
example : (∀ r ∈ exReadouts, r.Ok) ∧ DatedTimely true exReadouts ∧ StartsDated exReadouts ∧
    List.Forall₂ (Resolved 75 5) (datedReadouts true exReadouts) [[0, 1, 0, 1], [0, 1, 0, 1]] ∧
    (mmapOptions (some "tgdc".toList)).tgdc = true ∧ nameEndsWith "e.h5".toList ".h5" = true := by
  refine ⟨?_, ?_, ⟨_, _, _, _, _, rfl⟩, .cons (resolved_of (by decide +kernel)) (.cons (resolved_of (by decide +kernel)) .nil),
    by decide +kernel, by decide +kernel⟩
  · intro r hr
    simp only [exReadouts, List.mem_cons, List.not_mem_nil, or_false] at hr
    rcases hr with rfl | rfl
    · exact ⟨by decide, by decide +kernel, by decide +kernel⟩
    · exact ⟨by decide, by decide +kernel, by decide +kernel⟩
  · norm_num [DatedTimely, exReadouts, AllTimelyG, Signal.TimelyG, Past.after, PixelOk]

/-- C105 is false without `tgdc`: the readout of the second chip has no clock and no trigger, and its two neutrons are lost. -/
theorem c105_false_alone :
    MmapState.summary (mmapLoop noSolve (mmapOptions (some "tgdc".toList)) (fun _ => .whole) (detectorFile exReadouts) 100000 2
      MmapState.start) = some (8, 0, 4, 4) ∧
    MmapState.summary (mmapLoop noSolve (mmapOptions none) (fun _ => .whole) (detectorFile exReadouts) 100000 2
      MmapState.start) = some (4, 0, 2, 2) ∧
    pixelCount (exReadouts.flatMap Readout.signals) = 8 := by
  refine ⟨by decide +kernel, by decide +kernel, by decide⟩

/-- One neutron over two readouts of a chip. -/
def splitReadouts : List Readout :=
  [⟨0, [.clock 20000000, .trigger 20000100, .pixel 20000200 10 20 5 1]⟩, ⟨0, [.pixel 20000200 11 20 5 1]⟩]

/-- C105 is false for a neutron whose hits lie in two readouts: two events. -/
theorem c105_false_split : DatedTimely true splitReadouts ∧ Resolved 75 5 (datedReadouts true splitReadouts).flatten [0, 0] ∧
    MmapState.summary (mmapLoop noSolve (mmapOptions (some "tgdc".toList)) (fun _ => .whole) (detectorFile splitReadouts) 100000 2
      MmapState.start) = some (2, 0, 2, 2) := by
  refine ⟨?_, resolved_of (by decide +kernel), by decide +kernel⟩
  norm_num [DatedTimely, splitReadouts, AllTimelyG, Signal.TimelyG, Past.after, PixelOk]

end Verif.Props
