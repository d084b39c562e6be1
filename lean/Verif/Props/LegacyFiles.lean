import Verif.Props.H5
import Verif.Props.Legacy
import Verif.Props.LegacyAbs
import Verif.Props.StreamCli
import Verif.Spec.LegacySave

/-!
# Output files of the legacy library and of the streaming program (C82)
-/

namespace Verif.Props

open Verif Verif.Spec

/-! ## The two save functions -/

theorem mapM_tof (hits : List Hit) (h : ∀ x ∈ hits, RegularHit x) : hits.mapM Hit.tofNs =
    some (hits.map fun h => .fin (25 * ((h.tof.map BitVec.toNat).getD 0 : Nat))) := by
  induction hits with
  | nil => rfl
  | cons x hits ih =>
    obtain ⟨-, -, -, -, -, h6, -⟩ := h x (by simp)
    have hx : x.tofNs = some (.fin (25 * ((x.tof.map BitVec.toNat).getD 0 : Nat))) := by
      unfold Hit.tofNs
      cases ht : x.tof with
      | none => exact absurd ht h6
      | some t =>
        have := t.isLt
        simp only [Option.map_some, Option.getD_some]
        rw [mul25_exact _ (by rw [abs_of_nonneg (by positivity)]; omega)]
        simp
    rw [List.mapM_cons, hx, ih (fun y hy => h y (by simp [hy]))]
    rfl

theorem hitColumns_eq (hits : List Hit) (labels : List Int) (h : ∀ x ∈ hits, RegularHit x) :
    ∃ g, legacyHitColumns hits labels = some g ∧ hitsFile hits labels = [("hits".toList, g)] ∧ g.length = 8 := by
  refine ⟨_, by unfold legacyHitColumns; rw [mapM_tof hits h]; rfl, ?_, rfl⟩
  have e1 : hits.map Hit.totNs = hits.map fun h => .fin (25 * h.tot) := by
    refine List.map_congr_left fun x hx => ?_
    obtain ⟨-, -, h3, -⟩ := h x hx
    unfold Hit.totNs
    rw [mul25_exact _ (by omega)]
  have e2 : hits.map Hit.toaNs = hits.map fun h => .fin (25 * h.toa) := by
    refine List.map_congr_left fun x hx => ?_
    obtain ⟨-, -, -, h3, -⟩ := h x hx
    unfold Hit.toaNs
    rw [mul25_exact _ (by omega)]
  have e3 : hits.map Hit.ftoaNs = hits.map fun h => .fin (25 / 16 * h.ftoa) := by
    refine List.map_congr_left fun x hx => ?_
    obtain ⟨-, -, -, -, h3, -⟩ := h x hx
    rw [ftoa_exact x h3]
  have e4 : hits.map Hit.spidertimeNs = hits.map fun h => .fin (25 * h.spidertime.toNat) := by
    refine List.map_congr_left fun x hx => ?_
    obtain ⟨-, -, -, -, -, -, h3⟩ := h x hx
    unfold Hit.spidertimeNs
    rw [mul25_exact _ (by rw [abs_of_nonneg (by positivity)]; omega)]
    simp
  unfold hitsFile
  rw [e1, e2, e3, e4]
  rfl

theorem eventColumns_eq (es : List Neutron) : eventsFile es = [("events".toList, legacyEventColumns es)] := by
  have e25 : F64.ofRat 25 = .fin 25 := by simpa using F64.ofRat_int (n := 25) (by norm_num)
  unfold eventsFile legacyEventColumns
  have : es.map Neutron.tofNs = es.map fun e => F64.mul e.tof (.fin 25) := by
    refine List.map_congr_left fun x _ => ?_
    unfold Neutron.tofNs
    rw [e25]
  rw [this]
  rfl

/-- Without a fault among the calls for the columns all columns are there; with one, the last column that is there may be
without its values, and an exception is raised. -/
theorem writeColumns_cases (fault : Option Nat) (k : Nat) (cols g : PlainGroup) :
    ((∀ m, fault = some m → m < k ∨ k + 2 * cols.length ≤ m) ∧ writeColumns fault k cols g = (g ++ cols, false)) ∨
    (∃ m, fault = some m ∧ k ≤ m ∧ m < k + 2 * cols.length ∧ (writeColumns fault k cols g).2 = true ∧
      ∃ done rest, cols = done ++ rest ∧ rest ≠ [] ∧ ((writeColumns fault k cols g).1 = g ++ done ∨
        ∃ c ∈ rest.head?, (writeColumns fault k cols g).1 = g ++ done ++ [(c.1, c.2.zeros)])) := by
  induction cols generalizing k g with
  | nil =>
    refine .inl ⟨fun m _ => ?_, by simp [writeColumns]⟩
    simp only [List.length_nil, Nat.mul_zero, Nat.add_zero]
    exact Nat.lt_or_ge m k
  | cons c cs ih =>
    obtain ⟨n, c⟩ := c
    by_cases h0 : fault = some k
    · refine .inr ⟨k, h0, le_rfl, by simp only [List.length_cons]; omega, ?_, [], (n, c) :: cs, rfl, by simp, .inl ?_⟩
      · rw [writeColumns, if_pos h0]
      · rw [writeColumns, if_pos h0, List.append_nil]
    by_cases h1 : fault = some (k + 1)
    · refine .inr ⟨k + 1, h1, by omega, by simp only [List.length_cons]; omega, ?_, [], (n, c) :: cs, rfl, by simp,
        .inr ⟨(n, c), by simp, ?_⟩⟩
      · rw [writeColumns, if_neg h0, if_pos h1]
      · rw [writeColumns, if_neg h0, if_pos h1, List.append_nil]
    rw [writeColumns, if_neg h0, if_neg h1]
    rcases ih (k + 2) (g ++ [(n, c)]) with ⟨h2, h3⟩ | ⟨m, h2, h3, h4, h5, done, rest, h6, h7, h8⟩
    · refine .inl ⟨fun m hm => ?_, by rw [h3]; simp⟩
      have := h2 m hm
      have a0 : m ≠ k := by rintro rfl; exact h0 hm
      have a1 : m ≠ k + 1 := by rintro rfl; exact h1 hm
      simp only [List.length_cons]
      omega
    · refine .inr ⟨m, h2, by omega, by simp only [List.length_cons]; omega, h5, (n, c) :: done, rest, by rw [h6]; rfl, h7, ?_⟩
      rcases h8 with h8 | ⟨d, hd, h8⟩
      · exact .inl (by rw [h8]; simp)
      · exact .inr ⟨d, hd, by rw [h8]; simp⟩

theorem plainSave_others (fault : Option Nat) (path : Path) (group : Name) (cols : PlainGroup) (d : Disk) :
    OthersKept path d (plainSave fault path group cols d).1 := by
  intro q hq
  unfold plainSave
  split_ifs
  · rfl
  · exact Function.update_of_ne hq _ _
  · exact Function.update_of_ne hq _ _

/-- A save that raises no exception has written everything. -/
theorem plainSave_none {fault : Option Nat} {path : Path} {group : Name} {cols : PlainGroup} {d d' : Disk}
    (h : plainSave fault path group cols d = (d', none)) : d' path = some (.h5 [(group, cols)]) := by
  unfold plainSave at h
  by_cases h0 : fault = some 0
  · rw [if_pos h0] at h
    exact absurd (congrArg Prod.snd h) (by simp)
  rw [if_neg h0] at h
  by_cases h1 : fault = some 1
  · rw [if_pos h1] at h
    exact absurd (congrArg Prod.snd h) (by simp)
  rw [if_neg h1] at h
  rcases writeColumns_cases fault 2 cols [] with ⟨-, e⟩ | ⟨m, -, -, -, e, -⟩
  · rw [e] at h
    simp only [List.nil_append, Bool.false_eq_true, if_false, Prod.mk.injEq] at h
    rw [← h.1, Function.update_self]
  · simp only [e, if_true] at h
    exact absurd (congrArg Prod.snd h) (by simp)

theorem plainSave_ok (path : Path) (group : Name) (cols : PlainGroup) (d : Disk) :
    plainSave none path group cols d = (Function.update d path (some (.h5 [(group, cols)])), none) := by
  unfold plainSave
  rw [if_neg (by simp), if_neg (by simp)]
  rcases writeColumns_cases none 2 cols [] with ⟨-, e⟩ | ⟨m, h, -⟩
  · rw [e]; rfl
  · simp at h

/-- Any fault among the calls is reported, and unless it is the opening, the old content is gone and the new one is not
complete. -/
theorem plainSave_fault (k : Nat) (path : Path) (group : Name) (cols : PlainGroup) (d : Disk) (hk : k < 2 + 2 * cols.length) :
    (∃ e, (plainSave (some k) path group cols d).2 = some e) ∧
    (k = 0 → (plainSave (some k) path group cols d).1 = d) ∧
    (k ≠ 0 → ∃ f, (plainSave (some k) path group cols d).1 path = some (.h5 f) ∧ (f = [] ∨ ∃ g, f = [(group, g)] ∧
      ∃ done rest, cols = done ++ rest ∧ rest ≠ [] ∧
        (g = done ∨ ∃ c ∈ rest.head?, g = done ++ [(c.1, c.2.zeros)]))) := by
  unfold plainSave
  by_cases h0 : k = 0
  · rw [if_pos (by rw [h0])]
    exact ⟨⟨_, rfl⟩, fun _ => rfl, fun h => absurd h0 h⟩
  rw [if_neg (by simpa using h0)]
  by_cases h1 : k = 1
  · rw [if_pos (by rw [h1])]
    exact ⟨⟨_, rfl⟩, fun h => absurd h h0, fun _ => ⟨[], Function.update_self .., .inl rfl⟩⟩
  rw [if_neg (by simpa using h1)]
  rcases writeColumns_cases (some k) 2 cols [] with ⟨h, -⟩ | ⟨m, h2, h3, h4, h5, done, rest, h6, h7, h8⟩
  · have := h k rfl
    omega
  · refine ⟨⟨"H5::DataSetIException", by simp only [h5, if_true]⟩, fun h => absurd h h0, fun _ => ⟨_, Function.update_self .., .inr ⟨_, rfl, done, rest,
      h6, h7, ?_⟩⟩⟩
    simpa using h8

/-- C82: saved hits are exactly the content of the file, row by row with their labels; other files are as they were. -/
theorem c82_hits (path : Path) (hits : List Hit) (labels : List Int) (d : Disk) (hl : hits.length = labels.length)
    (hr : ∀ h ∈ hits, RegularHit h) :
    ∃ d', saveLegacyHits none path hits labels d = .ok (d', none) ∧ d' path = some (.h5 (hitsFile hits labels)) ∧
      OthersKept path d d' := by
  obtain ⟨g, h1, h2, -⟩ := hitColumns_eq hits labels hr
  unfold saveLegacyHits
  rw [if_neg (by simpa using hl), h1]
  simp only
  have ho := plainSave_others none path "hits".toList g d
  rw [plainSave_ok] at ho ⊢
  exact ⟨_, rfl, by rw [h2]; exact Function.update_self .., ho⟩

/-- C82: saved events are exactly the content of the file; other files are as they were. -/
theorem c82_events (path : Path) (es : List Neutron) (d : Disk) (hne : es ≠ []) :
    ∃ d', saveLegacyEvents none path es d = (d', none) ∧ d' path = some (.h5 (eventsFile es)) ∧ OthersKept path d d' := by
  unfold saveLegacyEvents
  rw [if_neg hne]
  have ho := plainSave_others none path "events".toList (legacyEventColumns es) d
  rw [plainSave_ok] at ho ⊢
  exact ⟨_, rfl, by rw [eventColumns_eq]; exact Function.update_self .., ho⟩

/-- C82: hits without as many labels, and an empty list of events, are refused with an exception and no effect, whatever
the library would do. -/
theorem c82_refused (fault : Option Nat) (path : Path) (d : Disk) :
    (∀ (hits : List Hit) (labels : List Int), hits.length ≠ labels.length →
      ∃ e, saveLegacyHits fault path hits labels d = .ok (d, some e)) ∧
    ∃ e, saveLegacyEvents fault path [] d = (d, some e) := by
  refine ⟨fun hits labels h => ⟨_, by unfold saveLegacyHits; rw [if_pos h]⟩, _, by unfold saveLegacyEvents; rw [if_pos rfl]⟩

/-- C82: a call that returns without an exception has saved everything, whichever library calls could have failed. -/
theorem c82_no_silent_loss (fault : Option Nat) (path : Path) (d d' : Disk) :
    (∀ (hits : List Hit) (labels : List Int), (∀ h ∈ hits, RegularHit h) →
      saveLegacyHits fault path hits labels d = .ok (d', none) →
      d' path = some (.h5 (hitsFile hits labels)) ∧ hits.length = labels.length) ∧
    (∀ es : List Neutron, saveLegacyEvents fault path es d = (d', none) →
      d' path = some (.h5 (eventsFile es)) ∧ es ≠ []) := by
  constructor
  · intro hits labels hr h
    obtain ⟨g, h1, h2, -⟩ := hitColumns_eq hits labels hr
    unfold saveLegacyHits at h
    by_cases hl : hits.length = labels.length
    · rw [if_neg (by simpa using hl), h1] at h
      simp only [Res.ok.injEq] at h
      exact ⟨by rw [plainSave_none h, h2], hl⟩
    · rw [if_pos hl] at h
      simp only [Res.ok.injEq, Prod.mk.injEq] at h
      exact absurd h.2 (by simp)
  · intro es h
    unfold saveLegacyEvents at h
    by_cases hn : es = []
    · rw [if_pos hn] at h
      exact absurd (congrArg Prod.snd h) (by simp)
    · rw [if_neg hn] at h
      exact ⟨by rw [plainSave_none h, eventColumns_eq], hn⟩

/-- C82: no call, whatever its outcome, changes another file. -/
theorem c82_other_files (fault : Option Nat) (path : Path) (d : Disk) :
    (∀ (hits : List Hit) (labels : List Int) r, saveLegacyHits fault path hits labels d = .ok r → OthersKept path d r.1) ∧
    ∀ es : List Neutron, OthersKept path d (saveLegacyEvents fault path es d).1 := by
  constructor
  · intro hits labels r h
    unfold saveLegacyHits at h
    by_cases hl : hits.length ≠ labels.length
    · rw [if_pos hl] at h
      simp only [Res.ok.injEq] at h
      subst h
      exact fun _ _ => rfl
    · rw [if_neg hl] at h
      cases hc : legacyHitColumns hits labels with
      | none => rw [hc] at h; simp at h
      | some g =>
        rw [hc] at h
        simp only [Res.ok.injEq] at h
        subst h
        exact plainSave_others fault path _ g d
  · intro es
    unfold saveLegacyEvents
    split_ifs
    · exact fun _ _ => rfl
    · exact plainSave_others fault path _ _ d

/-- C82: the file determines the hits and their labels. -/
theorem c82_determines_hits (h1 h2 : List Hit) (l1 l2 : List Int) (hr1 : ∀ h ∈ h1, RegularHit h)
    (hr2 : ∀ h ∈ h2, RegularHit h) (h : hitsFile h1 l1 = hitsFile h2 l2) : h1 = h2 ∧ l1 = l2 := by
  unfold hitsFile at h
  simp only [List.cons.injEq, Prod.mk.injEq, true_and, and_true, Column.ints.injEq, Column.doubles.injEq] at h
  obtain ⟨hx, hy, ht, ha, hf, ho, hs, hl⟩ := h
  refine ⟨?_, hl⟩
  have hlen : h1.length = h2.length := by simpa using congrArg List.length hx
  refine List.ext_getElem hlen fun i hi1 hi2 => ?_
  have get : ∀ {β : Type} (f : Hit → β), h1.map f = h2.map f → f h1[i] = f h2[i] := by
    intro β f e
    have := congrArg (fun l => l[i]?) e
    simpa [hi1, hi2] using this
  have ex := get _ hx
  have ey := get _ hy
  have et := get _ ht
  have ea := get _ ha
  have ef := get _ hf
  have eo := get _ ho
  have es := get _ hs
  obtain ⟨-, -, -, -, -, n1, -⟩ := hr1 h1[i] (List.getElem_mem hi1)
  obtain ⟨-, -, -, -, -, n2, -⟩ := hr2 h2[i] (List.getElem_mem hi2)
  generalize h1[i] = a at *
  generalize h2[i] = b at *
  obtain ⟨ax, ay, at', aa, af, ao, as⟩ := a
  obtain ⟨bx, by', bt, ba, bf, bo, bs⟩ := b
  simp only at ex ey n1 n2
  simp only [F64.fin.injEq, mul_eq_mul_left_iff, OfNat.ofNat_ne_zero, or_false] at et ea eo es
  simp only [F64.fin.injEq] at ef
  cases ao with
  | none => exact absurd rfl n1
  | some ao =>
    cases bo with
    | none => exact absurd rfl n2
    | some bo =>
      simp only [Option.map_some, Option.getD_some] at eo
      have e1 : at' = bt := by exact_mod_cast et
      have e2 : aa = ba := by exact_mod_cast ea
      have e3 : af = bf := by
        have : (af : ℚ) = bf := by linarith
        exact_mod_cast this
      have e4 : ao = bo := BitVec.eq_of_toNat_eq (by exact_mod_cast eo)
      have e5 : as = bs := BitVec.eq_of_toNat_eq (by exact_mod_cast es)
      rw [ex, ey, e1, e2, e3, e4, e5]

/-- C82: saving is not atomic.  Every library call that can fail is reported by an exception, but from `createGroup` on the
earlier content of the file is lost and what is there instead is incomplete: at least one column is missing, or the last one
has zeros for values. -/
theorem c82_false_atomic (path : Path) (es : List Neutron) (d : Disk) (hne : es ≠ []) (k : Nat) (hk : k < 12) :
    (∃ e, (saveLegacyEvents (some k) path es d).2 = some e) ∧
    (k = 0 → (saveLegacyEvents (some k) path es d).1 = d) ∧
    (k ≠ 0 → ∀ content, (saveLegacyEvents (some k) path es d).1 path ≠ some (.other content)) ∧
    (k ≠ 0 → k % 2 = 0 → (saveLegacyEvents (some k) path es d).1 path ≠ some (.h5 (eventsFile es))) := by
  unfold saveLegacyEvents
  rw [if_neg hne]
  obtain ⟨h1, h2, h3⟩ := plainSave_fault k path "events".toList (legacyEventColumns es) d hk
  refine ⟨h1, h2, ?_, ?_⟩
  · intro h content
    obtain ⟨f, hf, -⟩ := h3 h
    rw [hf]
    simp
  · intro h he
    have hw : ∀ (j : Nat), k = 2 * j + 2 → j < 5 → (writeColumns (some k) 2 (legacyEventColumns es) []).1.length = j := by
      intro j hj hj5
      subst hj
      obtain rfl | rfl | rfl | rfl | rfl : j = 0 ∨ j = 1 ∨ j = 2 ∨ j = 3 ∨ j = 4 := by omega
      all_goals simp [writeColumns, legacyEventColumns]
    have hj := hw (k / 2 - 1) (by omega) (by omega)
    unfold plainSave
    rw [if_neg (by simp only [Option.some.injEq]; omega), if_neg (by simp only [Option.some.injEq]; omega), eventColumns_eq]
    simp only [Function.update_self, ne_eq, Option.some.injEq, DiskFile.h5.injEq, List.cons.injEq, Prod.mk.injEq, true_and,
      and_true]
    intro e
    rw [e] at hj
    have : (legacyEventColumns es).length = 5 := rfl
    omega

/-- A column of the same kind with `n` rows of zero. -/
def fillColumn (n : Nat) : Column → Column
  | .ints _ => .ints (List.replicate n 0)
  | .doubles _ => .doubles (List.replicate n (.fin 0))

/-- C82, the disk after a column could not be written: the columns before are as they should be, this one has as many rows as there are
events and zero in all of them, and those after are missing. -/
theorem c82_half_written (path : Path) (es : List Neutron) (d : Disk) (hne : es ≠ []) (i : Nat) (hi : i < 5) :
    ∃ done c rest, eventsFile es = [("events".toList, done ++ c :: rest)] ∧ done.length = i ∧
      (saveLegacyEvents (some (2 * i + 3)) path es d).1 path =
        some (.h5 [("events".toList, done ++ [(c.1, fillColumn es.length c.2)])]) := by
  unfold saveLegacyEvents
  rw [if_neg hne, eventColumns_eq]
  have hi' : i < (legacyEventColumns es).length := hi
  refine ⟨(legacyEventColumns es).take i, (legacyEventColumns es)[i], (legacyEventColumns es).drop (i + 1), ?_, ?_, ?_⟩
  · rw [← List.drop_eq_getElem_cons hi', List.take_append_drop]
  · rw [List.length_take]
    show min i 5 = i
    omega
  · unfold plainSave
    rw [if_neg (by simp), if_neg (by simp only [Option.some.injEq]; omega)]
    simp only [Function.update_self]
    obtain rfl | rfl | rfl | rfl | rfl : i = 0 ∨ i = 1 ∨ i = 2 ∨ i = 3 ∨ i = 4 := by omega
    all_goals simp [writeColumns, legacyEventColumns, Column.zeros, fillColumn, Function.comp_def]

example (e : Neutron) : ([e] : List Neutron) ≠ [] ∧ 2 < 5 := ⟨by simp, by omega⟩

/-- Two hits with labels, and one event. -/
def exSaved : List Hit := [⟨3, 4, 5, 6, 7, some 8#32, 9#64⟩, ⟨300, 400, 1023, 16383, 15, some 600000#32, 281474976710655#64⟩]

theorem exSaved_regular : ∀ h ∈ exSaved, RegularHit h := by
  intro h hh
  simp only [exSaved, List.mem_cons, List.not_mem_nil, or_false] at hh
  rcases hh with rfl | rfl <;> exact ⟨by decide, by decide, by decide, by decide, by decide, by decide, by decide⟩

example : exSaved.length = [0, 1].length ∧ (∀ h ∈ exSaved, RegularHit h) ∧
    (hitsFile exSaved [0, 1]).length = 1 ∧ ([⟨.fin 1, .fin 2, .fin 3, .fin 4, 8⟩] : List Neutron) ≠ [] :=
  ⟨rfl, exSaved_regular, rfl, by simp⟩

/-! ## The streaming program -/

theorem packetToHit_times {w tdc gdc : U64} {chip : Int} {h : Hit} (e : packetToHit w tdc gdc chip = .ok h) :
    h.tof ≠ none ∧ h.spidertime.toNat < 2 ^ 48 := by
  have hb : (legacyExtend (legacySpider w chip) gdc).toNat < 2 ^ 48 := by
    rw [legacyExtend_toNat, legacyArrival]
    have h1 : clock30 w < 2 ^ 30 := by
      rw [clock30_eq]; exact rawSpider_lt w
    have h2 := Nat.mod_lt (gdc.toNat / 2 ^ 30 + if clock30 w < gdc.toNat % 2 ^ 30 then 1 else 0) (show 2 ^ 18 > 0 by decide)
    generalize (gdc.toNat / 2 ^ 30 + if clock30 w < gdc.toNat % 2 ^ 30 then 1 else 0) % 2 ^ 18 = a at h2
    omega
  unfold packetToHit at e
  simp only at e
  split_ifs at e
  · split at e
    · split_ifs at e
      simp only [Res.ok.injEq] at e
      subst e
      exact ⟨by simp [LegacyFields.hit], hb⟩
    · simp at e
  · simp only [Res.ok.injEq] at e
    subst e
    exact ⟨by simp [LegacyFields.hit], hb⟩

/-- All hits sent so far have a time of flight and a 48-bit arrival time. -/
def SentOk (s : StreamState) : Prop := ∀ h ∈ s.sent, h.tof ≠ none ∧ h.spidertime.toNat < 2 ^ 48

theorem streamPacket_ok {chip : Int} {w : U64} {s s' : StreamState} (hs : SentOk s) (h : streamPacket chip w s = .ok s') :
    SentOk s' := by
  unfold streamPacket at h
  by_cases h1 : isTdc w = true
  · rw [if_pos h1] at h
    simp only [Res.ok.injEq] at h
    subst h
    exact hs
  rw [if_neg h1] at h
  by_cases h2 : isGdc w = true
  · rw [if_pos h2] at h
    simp only [Res.ok.injEq] at h
    subst h
    exact hs
  rw [if_neg h2] at h
  by_cases h3 : isHit w = true
  · rw [if_pos h3] at h
    cases hp : packetToHit w s.clock.tdc s.clock.gdc chip with
    | throws e => rw [hp] at h; simp [Res.bind] at h
    | ub u => rw [hp] at h; simp [Res.bind] at h
    | ok x =>
      rw [hp] at h
      simp only [Res.bind, Res.ok.injEq] at h
      subst h
      intro y hy
      rcases List.mem_append.mp hy with hy | hy
      · exact hs y hy
      · rw [List.mem_singleton.mp hy]
        exact packetToHit_times hp
  · rw [if_neg h3] at h
    simp only [Res.ok.injEq] at h
    subst h
    exact hs

theorem streamPackets_ok (junk : Nat → U64) (chip : Int) (n : Nat) (f : IStream) (s : StreamState) (r : IStream × StreamState)
    (hs : SentOk s) (h : streamPackets' junk chip n f s = .ok r) : SentOk r.2 := by
  induction n generalizing f s with
  | zero => simp only [streamPackets', Res.ok.injEq] at h; subst h; exact hs
  | succ n ih =>
    rw [streamPackets'] at h
    cases hp : streamPacket chip (f.read8 junk).1 s with
    | throws e => rw [hp] at h; simp [Res.bind] at h
    | ub u => rw [hp] at h; simp [Res.bind] at h
    | ok s' =>
      rw [hp] at h
      simp only [Res.bind] at h
      exact ih _ _ (streamPacket_ok hs hp) h

theorem streamLoop_ok (junk : Nat → U64) (fuel : Nat) (f : IStream) (s : StreamState) (r : StreamState)
    (hs : SentOk s) (h : streamLoop junk fuel f s = .ok (some r)) : SentOk r := by
  induction fuel generalizing f s with
  | zero =>
    rw [streamLoop] at h
    split_ifs at h
    · simp only [Res.ok.injEq, Option.some.injEq] at h; subst h; exact hs
    · simp at h
  | succ fuel ih =>
    rw [streamLoop] at h
    by_cases h1 : f.eof = true
    · rw [if_pos h1] at h
      simp only [Res.ok.injEq, Option.some.injEq] at h; subst h; exact hs
    rw [if_neg h1] at h
    by_cases h2 : isHeader (f.read8 junk).1 = true
    · rw [if_pos h2] at h
      cases hp : streamPackets' junk (byteOf (f.read8 junk).1 4).toNat (headerPackets (f.read8 junk).1) (f.read8 junk).2 s with
      | throws e => rw [hp] at h; simp [Res.bind] at h
      | ub u => rw [hp] at h; simp [Res.bind] at h
      | ok x =>
        rw [hp] at h
        simp only [Res.bind] at h
        exact ih _ _ (streamPackets_ok junk _ _ _ _ x hs hp) h
    · rw [if_neg h2] at h
      exact ih _ _ hs h

theorem streamReader_times {junk : Nat → U64} {file : Bytes} {hits : List Hit} (h : streamReader junk file = .ok (some hits)) :
    ∀ x ∈ hits, x.tof ≠ none ∧ x.spidertime.toNat < 2 ^ 48 := by
  unfold streamReader at h
  cases hl : streamLoop junk (file.length / 8 + 2) ⟨file, 0, false, 0⟩ ⟨Clock.zero, []⟩ with
  | throws e => rw [hl] at h; simp [Res.bind] at h
  | ub u => rw [hl] at h; simp [Res.bind] at h
  | ok r =>
    rw [hl] at h
    simp only [Res.bind, Res.ok.injEq] at h
    cases r with
    | none => simp at h
    | some r =>
      simp only [Option.map_some, Option.some.injEq] at h
      subst h
      exact streamLoop_ok junk _ _ _ r (fun x hx => by simp at hx) hl

/-- Before the end all batches are full; at the end the last one may be shorter, but not empty. -/
def FullBatches (s : StreamSys Hit) : Prop :=
  (s.phase ≠ .finished → (∀ b ∈ s.out, b.length = 10000) ∧ (s.phase = .test ∨ s.phase = .tryDequeue → s.batch.length < 10000)) ∧
  (s.phase = .finished → (∀ b ∈ s.out, b ≠ []) ∧ ∀ b ∈ s.out.dropLast, b.length = 10000)

theorem FullBatches.reader {s : StreamSys Hit} (h : FullBatches s) : FullBatches s.readerStep := by
  unfold StreamSys.readerStep
  split_ifs
  · exact h
  · split <;> exact h

theorem full_push {out : List (List Hit)} {b : List Hit} (ho : ∀ b ∈ out, b.length = 10000) (hb : b ≠ []) :
    (∀ c ∈ out ++ [b], c ≠ []) ∧ ∀ c ∈ (out ++ [b]).dropLast, c.length = 10000 := by
  refine ⟨?_, by rw [List.dropLast_concat]; exact ho⟩
  intro c hc
  rcases List.mem_append.mp hc with hc | hc
  · have := ho c hc
    rintro rfl
    simp at this
  · rw [List.mem_singleton.mp hc]
    exact hb

theorem FullBatches.proc {s : StreamSys Hit} (h : FullBatches s) : FullBatches s.procStep := by
  unfold StreamSys.procStep
  rcases hp : s.phase with _ | _ | _ | _ | _
  · obtain ⟨h1, h2⟩ := h.1 (by rw [hp]; simp)
    have h2 := h2 (.inl hp)
    simp only
    split_ifs
    · exact ⟨fun _ => ⟨h1, by simp⟩, by simp⟩
    · exact ⟨fun _ => ⟨h1, fun _ => h2⟩, by simp⟩
  · obtain ⟨h1, h2⟩ := h.1 (by rw [hp]; simp)
    have h2 := h2 (.inr hp)
    rcases hq : s.queue with _ | ⟨x, q⟩
    · exact ⟨fun _ => ⟨h1, fun _ => h2⟩, by simp⟩
    · simp only
      split_ifs with hb
      · refine ⟨fun _ => ⟨?_, fun _ => by simp⟩, by simp⟩
        intro b hbm
        rcases List.mem_append.mp hbm with hbm | hbm
        · exact h1 b hbm
        · rw [List.mem_singleton.mp hbm]
          simp only [streamBatch, List.length_append, List.length_singleton] at hb ⊢
          omega
      · refine ⟨fun _ => ⟨h1, fun _ => ?_⟩, by simp⟩
        simp only [streamBatch] at hb
        show (s.batch ++ [x]).length < 10000
        omega
  · obtain ⟨h1, -⟩ := h.1 (by rw [hp]; simp)
    simp only
    split_ifs with hq hb
    · exact ⟨fun _ => ⟨h1, by simp⟩, by simp⟩
    · exact ⟨by simp, fun _ => full_push h1 hb⟩
    · refine ⟨by simp, fun _ => ⟨fun b hbm => ?_, fun b hbm => h1 b (List.dropLast_subset _ hbm)⟩⟩
      have := h1 b hbm
      rintro rfl
      simp at this
  · obtain ⟨h1, -⟩ := h.1 (by rw [hp]; simp)
    rcases hq : s.queue with _ | ⟨x, q⟩
    · exact h
    · exact ⟨fun _ => ⟨h1, by simp⟩, by simp⟩
  · exact h

theorem FullBatches.run (hits : List Hit) (sched : Nat → Bool) (n : Nat) :
    FullBatches ((StreamSys.init true hits).run sched n) := by
  induction n with
  | zero => exact ⟨fun _ => ⟨by simp [StreamSys.run, StreamSys.init], by simp [StreamSys.run, StreamSys.init]⟩,
      by simp [StreamSys.run, StreamSys.init]⟩
  | succ n ih =>
    rw [StreamSys.run]
    split_ifs
    · exact ih.reader
    · exact ih.proc

/-- Events made of one batch: each comes from a cluster of at least eight of its hits, in the grouping that the legacy
search finds with radius 5, minimal size 1 and a range of 75 ns, and has the size of this cluster. -/
def EventsOf (batch : List Hit) (es : List Neutron) : Prop :=
  ∃ o : AbsObj, ((AbsObj.new ⟨F64.ofRat 5, 1, 75⟩).setMethod "fast_gaussian").legacyFit batch = .ok o ∧
    ∀ e ∈ es, ∃ l : Nat, 8 ≤ (members batch o.labels l).length ∧ e.nHits = (members batch o.labels l).length

theorem processBatch_ok (solve : List GaussRow → F64 × F64) (batch : List Hit) (hne : batch ≠ [])
    (ht : ∀ h ∈ batch, h.tof ≠ none ∧ h.spidertime.toNat < 2 ^ 48) :
    ∃ es, processBatch solve batch = .ok es ∧ EventsOf batch es := by
  obtain ⟨o', h⟩ := c69_returns ((AbsObj.new ⟨F64.ofRat 5, 1, 75⟩).setMethod "fast_gaussian") batch
    (fun x hx => by have := (ht x hx).2; omega)
  have hc := fitWith_consistent (by decide) h
  have hlen := (c69_labels _ o' batch h).1
  have hpm := (fitWith_inv (by decide) h).choose_spec.choose_spec.choose_spec.2
  have hm : o'.method = "fast_gaussian" := hpm.2.1
  have hnil : o'.labels ≠ [] := by
    intro e
    rw [e] at hlen
    exact hne (List.eq_nil_of_length_eq_zero hlen.symm)
  have hex : ∃ es, o'.legacyEvents solve batch = .ok es := by
    rw [legacyEvents_eq _ _ _ hne]
    rcases getEvents_cases (solve := solve) hc batch with ⟨h1, -⟩ | ⟨-, -, -, h4, -⟩ | ⟨-, h2, -⟩ | ⟨-, -, -, h4⟩
    · exact absurd hlen h1
    · exact absurd hm h4
    · exact absurd h2 hne
    · rcases h4 with h4 | ⟨-, x, hx, hn⟩
      · exact h4
      · exact absurd hn (ht x hx).1
  obtain ⟨es, he⟩ := hex
  refine ⟨es, ?_, o', h, ?_⟩
  · unfold processBatch
    rw [h]
    exact he
  · unfold AbsObj.legacyEvents at he
    rw [if_neg (by simpa using hlen), if_neg hnil, hm] at he
    have ha : AbsObj.algorithm solve "fast_gaussian" = some (fastGaussianFit solve (F64.ofRat 1)) := by
      unfold AbsObj.algorithm; rw [if_neg (by decide), if_pos rfl]
    rw [ha] at he
    intro e hee
    obtain ⟨l, -, -, h1, h2⟩ := eventLoop_mem hc hnil hlen _ _ es he e hee
    exact ⟨l, fastGaussian_nHits h1 h2⟩

theorem processBatches_ok (solve : List GaussRow → F64 × F64) (out : List (List Hit)) (hne : ∀ b ∈ out, b ≠ [])
    (ht : ∀ b ∈ out, ∀ h ∈ b, h.tof ≠ none ∧ h.spidertime.toNat < 2 ^ 48) :
    ∃ ess, processBatches solve out = .ok ess.flatten ∧ List.Forall₂ EventsOf out ess := by
  induction out with
  | nil => exact ⟨[], rfl, .nil⟩
  | cons b out ih =>
    obtain ⟨es, h1, h2⟩ := processBatch_ok solve b (hne b (by simp)) (ht b (by simp))
    obtain ⟨ess, h3, h4⟩ := ih (fun c hc => hne c (by simp [hc])) (fun c hc => ht c (by simp [hc]))
    refine ⟨es :: ess, ?_, .cons h2 h4⟩
    unfold processBatches
    rw [h1, h3]
    rfl

theorem run_hits {hits : List Hit} {sched : Nat → Bool} {n : Nat}
    (h : ((StreamSys.init true hits).run sched n).phase = .finished) :
    ∀ b ∈ ((StreamSys.init true hits).run sched n).out, ∀ x ∈ b, x ∈ hits := by
  intro b hb x hx
  obtain ⟨a, m, c, h1, h2, -⟩ := c52_delivery_partial hits sched n h
  have : x ∈ ((StreamSys.init true hits).run sched n).out.flatten := List.mem_flatten.mpr ⟨b, hb, hx⟩
  rw [h2] at this
  rw [h1]
  rcases List.mem_append.mp this with h | h
  · simp [h]
  · simp [h]

/-- C82, the streaming program from the bytes of the file to its output, for every interleaving: the batches are of 10000
hits except the last; each is clustered on its own and its events come from clusters of at least eight of its hits; the
file `events_streamed.h5` holds the events of all batches in order, the program ends with 0, and no other file changes.
Without events the program ends with an uncaught exception and writes nothing.
Missing: what the batches leave out, and events of fewer than eight hits (`c82_false_lost`, `c82_small`). -/
theorem c82_stream_partial (solve : List GaussRow → F64 × F64) (junk : Nat → U64) (file : Bytes) (hits : List Hit)
    (hr : streamReader junk file = .ok (some hits)) (sched : Nat → Bool) (n : Nat)
    (h : ((StreamSys.init true hits).run sched n).phase = .finished) (d : Disk) :
    ∃ out ess d' r, out = ((StreamSys.init true hits).run sched n).out ∧
      (∀ b ∈ out, b ≠ []) ∧ (∀ b ∈ out.dropLast, b.length = 10000) ∧ List.Forall₂ EventsOf out ess ∧
      streamFinish solve none out d = .ok (d', r) ∧
      (ess.flatten = [] → d' = d ∧ r = .aborted "No events to save") ∧
      (ess.flatten ≠ [] → r = .exit 0 ∧ d' "events_streamed.h5".toList = some (.h5 (eventsFile ess.flatten)) ∧
        OthersKept "events_streamed.h5".toList d d') := by
  have hfull := (FullBatches.run hits sched n).2 h
  have hmem := run_hits h
  generalize ((StreamSys.init true hits).run sched n).out = out at hfull hmem
  have ht := streamReader_times hr
  obtain ⟨ess, h1, h2⟩ := processBatches_ok solve out hfull.1 (fun b hb x hx => ht x (hmem b hb x hx))
  by_cases he : ess.flatten = []
  · refine ⟨out, ess, d, _, rfl, hfull.1, hfull.2, h2, ?_, fun _ => ⟨rfl, rfl⟩, fun h => absurd he h⟩
    unfold streamFinish
    rw [h1, he]
    rfl
  · obtain ⟨d', h3, h4, h5⟩ := c82_events "events_streamed.h5".toList ess.flatten d he
    refine ⟨out, ess, d', .exit 0, rfl, hfull.1, hfull.2, h2, ?_, fun h => absurd h he, fun _ => ⟨rfl, h4, h5⟩⟩
    unfold streamFinish
    rw [h1]
    simp only [bind, Res.bind]
    rw [h3]

/-- C82: with fewer than eight hits in the file no event is made: the program ends with an uncaught exception and writes
nothing, whatever the interleaving. -/
theorem c82_small (solve : List GaussRow → F64 × F64) (junk : Nat → U64) (file : Bytes) (hits : List Hit)
    (hr : streamReader junk file = .ok (some hits)) (h8 : hits.length < 8) (sched : Nat → Bool) (n : Nat)
    (h : ((StreamSys.init true hits).run sched n).phase = .finished) (d : Disk) :
    streamFinish solve none ((StreamSys.init true hits).run sched n).out d = .ok (d, .aborted "No events to save") := by
  obtain ⟨out, ess, d', r, h1, -, -, h2, h3, h4, -⟩ := c82_stream_partial solve junk file hits hr sched n h d
  obtain ⟨a, m, c, e1, e2, -⟩ := c52_delivery_partial hits sched n h
  have hlen : ((StreamSys.init true hits).run sched n).out.flatten.length < 8 := by
    rw [e2]
    have := congrArg List.length e1
    simp only [List.length_append] at this ⊢
    omega
  rw [← h1] at hlen ⊢
  have he : ess.flatten = [] := by
    clear h3 h4 h1
    induction h2 with
    | nil => rfl
    | @cons b es out ess hb _ ih =>
      rw [List.flatten_cons, List.length_append] at hlen
      rw [List.flatten_cons, ih (by omega), List.append_nil]
      obtain ⟨o, -, hev⟩ := hb
      rw [List.eq_nil_iff_forall_not_mem]
      intro e hee
      obtain ⟨l, h8', -⟩ := hev e hee
      have := (members_sublist b o.labels l).length_le
      omega
  rw [h3, (h4 he).1, (h4 he).2]

/-- C82: for every file with fewer than 10000 hits, but at least one, there is a fair interleaving in which the program
writes no file at all. -/
theorem c82_false_lost (solve : List GaussRow → F64 × F64) (hits : List Hit) (h0 : hits ≠ []) (h1 : hits.length < 10000)
    (d : Disk) : ∃ sched n, Fair sched ∧ ((StreamSys.init true hits).run sched n).phase = .finished ∧
      streamFinish solve none ((StreamSys.init true hits).run sched n).out d = .ok (d, .aborted "No events to save") := by
  have hpos := List.length_pos_iff.mpr h0
  obtain ⟨sched, n, hf, h2, -, h3, -⟩ := c52_false hits (by intro hd; have := Nat.le_of_dvd hpos hd; omega)
  refine ⟨sched, n, hf, h2, ?_⟩
  have hfull := (FullBatches.run hits sched n).2 h2
  rw [Nat.mod_eq_of_lt h1, Nat.sub_self, List.take_zero] at h3
  have ho : ((StreamSys.init true hits).run sched n).out = [] := by
    rw [List.eq_nil_iff_forall_not_mem]
    intro b hb
    exact hfull.1 b hb (List.flatten_eq_nil_iff.mp h3 b hb)
  rw [ho]
  rfl

/-- A file with one hit, which the reader sends. -/
example : ∃ hits, streamReader (fun _ => 0#64) (bytesOf 0x0008000033585054#64 ++ bytesOf 0xB000000000000001#64) =
    .ok (some hits) ∧ hits.length = 1 := ⟨[legacyHit 0xB000000000000001#64 0 0 0], by rfl, rfl⟩

end Verif.Props
