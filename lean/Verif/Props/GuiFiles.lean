import Verif.Spec.GuiFiles
import Verif.Props.DisplayWindow
import Verif.Props.DetectorViewer
import Verif.Props.LegacyFiles

/-!
# C118: the files that the graphical program saves
-/

namespace Verif.Props

open Verif Verif.Spec

/-! ## The picture as bytes -/

theorem guiPicture_ok (cos sin : F64) (histo : Nat → F64) (es : List Neutron) (hN : es.length < 2 ^ 53)
    (h : ∀ i j, i < 512 → j < 512 → histo (512 * i + j) = .fin (cellCount cos sin i j es : ℚ)) :
    IsGuiPictureOf cos sin (guiPictureBytes histo) es := by
  refine ⟨flatMap_length_const _ 8 (fun k => bytesOf_length _) _, fun i j hi hj => ?_⟩
  unfold doubleAt guiPictureBytes
  rw [flatMap_slice _ 8 (fun k => bytesOf_length _) _ _ (by omega), lowFirst_eq, leNat_bytesOf,
    show (512 * j + i) % 512 = i by omega, show (512 * j + i) / 512 = j by omega, h i j hi hj]
  have hc : cellCount cos sin i j es < 2 ^ 53 := lt_of_le_of_lt List.countP_le_length hN
  obtain ⟨h1, h2⟩ := binary64_count _ hc
  rw [BitVec.toNat_ofNat, Nat.mod_eq_of_lt h1, h2]

theorem inFrame_iff (cos sin : F64) (e : Neutron) : InFrame cos sin e ↔ ∃ i j, i < 512 ∧ j < 512 ∧ InCell cos sin i j e := by
  constructor
  · rintro ⟨x, y, h1, h2, h3, h4, h5, h6⟩
    have hx := Nat.floor_le h3
    have hy := Nat.floor_le h5
    refine ⟨⌊x⌋₊, ⌊y⌋₊, (Nat.floor_lt h3).2 (by exact_mod_cast h4), (Nat.floor_lt h5).2 (by exact_mod_cast h6), x, y, h1, h2, hx,
      Nat.lt_floor_add_one x, hy, Nat.lt_floor_add_one y⟩
  · rintro ⟨i, j, hi, hj, x, y, h1, h2, h3, h4, h5, h6⟩
    have hi' : (i : ℚ) + 1 ≤ 512 := by exact_mod_cast hi
    have hj' : (j : ℚ) + 1 ≤ 512 := by exact_mod_cast hj
    have hi0 : (0 : ℚ) ≤ i := by positivity
    have hj0 : (0 : ℚ) ≤ j := by positivity
    exact ⟨x, y, h1, h2, by linarith, by linarith, by linarith, by linarith⟩

theorem inCell_unique {cos sin : F64} {e : Neutron} {i j i' j' : Nat} (h : InCell cos sin i j e) (h' : InCell cos sin i' j' e) :
    i = i' ∧ j = j' := by
  obtain ⟨x, y, h1, h2, h3, h4, h5, h6⟩ := h
  obtain ⟨x', y', k1, k2, k3, k4, k5, k6⟩ := h'
  rw [h1, F64.fin.injEq] at k1
  rw [h2, F64.fin.injEq] at k2
  subst k1 k2
  have a1 : (i : ℚ) < i' + 1 := by linarith
  have a2 : (i' : ℚ) < i + 1 := by linarith
  have a3 : (j : ℚ) < j' + 1 := by linarith
  have a4 : (j' : ℚ) < j + 1 := by linarith
  have b1 : i < i' + 1 := by exact_mod_cast a1
  have b2 : i' < i + 1 := by exact_mod_cast a2
  have b3 : j < j' + 1 := by exact_mod_cast a3
  have b4 : j' < j + 1 := by exact_mod_cast a4
  omega

open Classical in
/-- The cells divide the picture. -/
theorem cells_sum (cos sin : F64) (es : List Neutron) (n : Nat) (hn : n = 512) :
    ∑ i ∈ Finset.range n, ∑ j ∈ Finset.range n, cellCount cos sin i j es = framed cos sin es := by
  induction es with
  | nil => simp [cellCount, framed]
  | cons e es ih =>
    have e1 : ∀ i j, cellCount cos sin i j (e :: es) = cellCount cos sin i j es + if InCell cos sin i j e then 1 else 0 := by
      intro i j
      unfold cellCount
      rw [List.countP_cons]
      simp
    have e2 : framed cos sin (e :: es) = framed cos sin es + if InFrame cos sin e then 1 else 0 := by
      unfold framed
      rw [List.countP_cons]
      simp
    simp only [e1, e2, Finset.sum_add_distrib, ih]
    congr 1
    by_cases hf : InFrame cos sin e
    · rw [if_pos hf]
      obtain ⟨i, j, hi, hj, hc⟩ := (inFrame_iff cos sin e).1 hf
      rw [← hn] at hi hj
      rw [Finset.sum_eq_single i, Finset.sum_eq_single j, if_pos hc]
      · intro j' _ hne
        rw [if_neg fun h => hne (inCell_unique h hc).2]
      · intro h; exact absurd (Finset.mem_range.2 hj) h
      · intro i' _ hne
        refine Finset.sum_eq_zero fun j' _ => ?_
        rw [if_neg fun h => hne (inCell_unique h hc).1]
      · intro h; exact absurd (Finset.mem_range.2 hi) h
    · rw [if_neg hf]
      refine Finset.sum_eq_zero fun i hi => Finset.sum_eq_zero fun j hj => ?_
      rw [if_neg fun h => hf ((inFrame_iff cos sin e).2 ⟨i, j, hn ▸ Finset.mem_range.1 hi, hn ▸ Finset.mem_range.1 hj, h⟩)]

/-- C118: the numbers of a picture file add up to the number of events that lie in the picture after turning. -/
theorem c118_total (cos sin : F64) (f : Bytes) (es : List Neutron) (h : IsGuiPictureOf cos sin f es) :
    ∑ i ∈ Finset.range 512, ∑ j ∈ Finset.range 512, doubleAt f (512 * j + i) = (framed cos sin es : ℚ) := by
  rw [← cells_sum cos sin es 512 rfl]
  push_cast
  refine Finset.sum_congr rfl fun i hi => Finset.sum_congr rfl fun j hj => ?_
  exact h.2 i j (Finset.mem_range.1 hi) (Finset.mem_range.1 hj)

/-! ## Sessions -/

variable {env : SaveEnv} {solve : List GaussRow → F64 × F64} {cos sin : F64}

/-- The window after a session is the one after its readings: saving does not change it. -/
theorem session_window (as : List GuiDeed) (g g' : Gui) (d d' : Disk)
    (h : guiSession env solve cos sin g d as = .ok (some g', d')) : g.run solve cos sin (readings as) = .ok (g', []) := by
  induction as generalizing g d with
  | nil =>
    simp only [guiSession, Res.ok.injEq, Prod.mk.injEq, Option.some.injEq] at h
    rw [← h.1]; rfl
  | cons a as ih =>
    cases a with
    | read c =>
      simp only [guiSession] at h
      cases hr : g.readFile solve cos sin c with
      | ok g1 =>
        rw [hr] at h
        have := ih g1 d h
        simp only [readings, Gui.run, Gui.act, hr, bind, Res.bind, this, List.nil_append]
      | throws m => rw [hr] at h; simp at h
      | ub u => rw [hr] at h; simp at h
    | save p e fault =>
      simp only [guiSession] at h
      cases hr : g.saveFiles env fault p e d with
      | ok r =>
        rw [hr] at h
        obtain ⟨d1, x⟩ := r
        cases x with
        | none => exact ih g d1 h
        | some m => simp at h
      | throws m => rw [hr] at h; simp at h
      | ub u => rw [hr] at h; simp at h
    | range => exact ih g d h

theorem session_reads (cs : List OpenChoice) (g g' : Gui) (d : Disk)
    (h : g.run solve cos sin (cs.map .read) = .ok (g', [])) : guiSession env solve cos sin g d (cs.map .read) = .ok (some g', d) := by
  induction cs generalizing g with
  | nil =>
    simp only [List.map_nil, Gui.run, Res.ok.injEq, Prod.mk.injEq] at h
    rw [← h.1]; rfl
  | cons c cs ih =>
    obtain ⟨r1, r2, h1, h2, h3⟩ := run_cons h
    simp only [Gui.act] at h1
    cases hr : g.readFile solve cos sin c with
    | ok g1 =>
      rw [hr] at h1
      simp only [Res.bind, Res.ok.injEq] at h1
      rw [← h1] at h2
      simp only [List.map_cons, guiSession, hr]
      refine ih g1 ?_
      rw [h2]
      simp only [Prod.mk.injEq] at h3
      rw [← h1] at h3
      simp only [List.nil_append] at h3
      obtain ⟨h3, h4⟩ := h3
      rw [Res.ok.injEq]
      exact Prod.ext h3.symm h4.symm
    | throws m => rw [hr] at h1; simp [Res.bind] at h1
    | ub u => rw [hr] at h1; simp [Res.bind] at h1

theorem saveFiles_others (fault : Option Nat) (g : Gui) (p e : Option Path) (d : Disk) (r : Disk × Option String)
    (h : g.saveFiles env fault p e d = .ok r) (q : Path) (h1 : some q ≠ p) (h2 : some q ≠ e) : r.1 q = d q := by
  unfold Gui.saveFiles at h
  by_cases ht : g.timer = true
  · rw [if_pos ht, Res.ok.injEq] at h
    rw [← h]
  rw [if_neg ht] at h
  have key : ∀ d', g.savePicture env p d = .ok d' → d' q = d q := by
    intro d' hd
    cases p with
    | none =>
      simp only [Gui.savePicture, Res.ok.injEq] at hd
      rw [hd]
    | some p =>
      simp only [Gui.savePicture] at hd
      by_cases ho : env.opens p = true
      · rw [if_pos ho, Res.ok.injEq] at hd
        rw [← hd, Function.update_of_ne (fun h => h1 (by rw [h]))]
      · rw [if_neg ho] at hd
        cases hd
  cases hp : g.savePicture env p d with
  | throws m => rw [hp] at h; simp [Res.bind] at h
  | ub u => rw [hp] at h; simp [Res.bind] at h
  | ok d' =>
    rw [hp] at h
    simp only [Res.bind] at h
    cases e with
    | none =>
      simp only [Res.ok.injEq] at h
      rw [← h]
      exact key d' hp
    | some e =>
      simp only [Res.ok.injEq] at h
      rw [← h, (c82_other_files fault e d').2 g.events q (fun hq => h2 (by rw [hq]))]
      exact key d' hp

/-- C118: whatever happens in a session, and however it ends, only files whose names the user gives are changed. -/
theorem c118_others (as : List GuiDeed) (g : Gui) (d : Disk) (r : Option Gui × Disk)
    (h : guiSession env solve cos sin g d as = .ok r) (q : Path) (hq : q ∉ namesGiven as) : r.2 q = d q := by
  induction as generalizing g d with
  | nil =>
    simp only [guiSession, Res.ok.injEq] at h
    rw [← h]
  | cons a as ih =>
    cases a with
    | read c =>
      simp only [guiSession] at h
      cases hr : g.readFile solve cos sin c with
      | ok g1 => rw [hr] at h; exact ih g1 d h hq
      | throws m => rw [hr] at h; simp only [Res.ok.injEq] at h; rw [← h]
      | ub u => rw [hr] at h; simp at h
    | save p e fault =>
      simp only [namesGiven, List.mem_append, not_or, Option.mem_toList] at hq
      obtain ⟨⟨q1, q2⟩, q3⟩ := hq
      simp only [guiSession] at h
      cases hr : g.saveFiles env fault p e d with
      | ok x =>
        have hx := saveFiles_others fault g p e d x hr q (fun h => q1 h.symm) (fun h => q2 h.symm)
        rw [hr] at h
        obtain ⟨d1, y⟩ := x
        cases y with
        | none => rw [ih g d1 h q3]; exact hx
        | some m =>
          simp only [Res.ok.injEq] at h
          rw [← h]
          exact hx
      | throws m => rw [hr] at h; simp only [Res.ok.injEq] at h; rw [← h]
      | ub u => rw [hr] at h; simp at h
    | range => exact ih g d h hq

theorem saveFiles_ok (g : Gui) (ht : g.timer = false) (hne : g.events ≠ []) (P E : Path) (hPE : P ≠ E) (hP : HasRoom env P) (d : Disk) :
    ∃ d', g.saveFiles env none (some P) (some E) d = .ok (d', none) ∧ d' P = some (.other (guiPictureBytes g.histo)) ∧
      d' E = some (.h5 (eventsFile g.events)) ∧ ∀ Q, Q ≠ P → Q ≠ E → d' Q = d Q := by
  have hl : (guiPictureBytes g.histo).length = 8 * (512 * 512) := flatMap_length_const _ 8 (fun k => bytesOf_length _) _
  have hp : g.savePicture env (some P) d = .ok (Function.update d P (some (.other (guiPictureBytes g.histo)))) := by
    simp only [Gui.savePicture]
    rw [if_pos hP.1, List.take_of_length_le (by rw [hl]; exact hP.2)]
  obtain ⟨d', h1, h2, h3⟩ := c82_events E g.events (Function.update d P (some (.other (guiPictureBytes g.histo)))) hne
  refine ⟨d', ?_, ?_, h2, fun Q q1 q2 => ?_⟩
  · simp only [Gui.saveFiles]
    rw [if_neg (by rw [ht]; simp), hp]
    simp only [Res.bind, h1]
  · rw [h3 P hPE, Function.update_self]
  · rw [h3 Q q2, Function.update_of_ne q1]

/-- C118: after any session, saving under two names writes a picture of all events of all files read, and the rows of the events of the
last one; no other file is touched. -/
theorem c118_saved (as : List GuiDeed) (g : Gui) (d d1 : Disk)
    (h : guiSession env solve cos sin Gui.init d as = .ok (some g, d1)) (ht : g.timer = false) (hne : g.events ≠ [])
    (hN : (eventsRead solve cos sin Gui.init (readings as)).length < 2 ^ 53) (P E : Path) (hPE : P ≠ E) (hP : HasRoom env P) :
    ∃ d2 f, guiSession env solve cos sin Gui.init d (as ++ [.save (some P) (some E) none]) = .ok (some g, d2) ∧
      d2 P = some (.other f) ∧ IsGuiPictureOf cos sin f (eventsRead solve cos sin Gui.init (readings as)) ∧
      d2 E = some (.h5 (eventsFile g.events)) ∧ ∀ Q, Q ≠ P → Q ≠ E → d2 Q = d1 Q := by
  obtain ⟨d2, h1, h2, h3, h4⟩ := saveFiles_ok g ht hne P E hPE hP d1
  refine ⟨d2, _, ?_, h2, ?_, h3, h4⟩
  · have key : ∀ (as : List GuiDeed) (g0 : Gui) (d : Disk), guiSession env solve cos sin g0 d as = .ok (some g, d1) →
        guiSession env solve cos sin g0 d (as ++ [.save (some P) (some E) none]) = .ok (some g, d2) := by
      intro as
      induction as with
      | nil =>
        intro g0 d h
        simp only [guiSession, Res.ok.injEq, Prod.mk.injEq, Option.some.injEq] at h
        obtain ⟨rfl, rfl⟩ := h
        simp only [List.nil_append, guiSession, h1]
      | cons a as ih =>
        intro g0 d h
        cases a with
        | read c =>
          simp only [guiSession, List.cons_append] at h ⊢
          cases hr : g0.readFile solve cos sin c with
          | ok g1 => rw [hr] at h; exact ih g1 d h
          | throws m => rw [hr] at h; simp at h
          | ub u => rw [hr] at h; simp at h
        | save p e fault =>
          simp only [guiSession, List.cons_append] at h ⊢
          cases hr : g0.saveFiles env fault p e d with
          | ok x =>
            rw [hr] at h
            obtain ⟨d1, y⟩ := x
            cases y with
            | none => exact ih g0 d1 h
            | some m => simp at h
          | throws m => rw [hr] at h; simp at h
          | ub u => rw [hr] at h; simp at h
        | range => exact ih g0 d h
    exact key as Gui.init d h
  · have hw := session_window as Gui.init g d d1 h
    exact guiPicture_ok cos sin g.histo _ hN fun i j hi hj => c73_counts solve cos sin _ (g, []) hw (by omega) i j hi hj

/-- C118: the two files of one file read tell the same: the rows of the events are as many as the picture counts and those that lie
outside it. -/
theorem c118_agree (content : Bytes) (g : Gui) (d d1 : Disk)
    (h : guiSession env solve cos sin Gui.init d [.read (.file content)] = .ok (some g, d1)) (hne : g.events ≠ [])
    (hN : g.events.length < 2 ^ 53) (P E : Path) (hPE : P ≠ E) (hP : HasRoom env P) :
    ∃ d2 f, guiSession env solve cos sin Gui.init d [.read (.file content), .save (some P) (some E) none] = .ok (some g, d2) ∧
      d2 P = some (.other f) ∧ d2 E = some (.h5 (eventsFile g.events)) ∧
      ∑ i ∈ Finset.range 512, ∑ j ∈ Finset.range 512, doubleAt f (512 * j + i) = (framed cos sin g.events : ℚ) ∧
      framed cos sin g.events ≤ g.events.length := by
  have hr : Gui.init.readFile solve cos sin (.file content) = .ok g := by
    simp only [guiSession] at h
    cases hr : Gui.init.readFile solve cos sin (.file content) with
    | ok g1 => rw [hr] at h; simp only [Res.ok.injEq, Prod.mk.injEq, Option.some.injEq] at h; rw [h.1]
    | throws m => rw [hr] at h; simp at h
    | ub u => rw [hr] at h; simp at h
  have ht : g.timer = false := by
    simp only [Gui.readFile] at hr
    rw [if_neg (by simp [Gui.init])] at hr
    simp only [bind, Res.bind] at hr
    split at hr <;> try simp at hr
    split at hr <;> try simp at hr
    split at hr <;> try simp at hr
    split at hr <;> try simp at hr
    rw [← hr]
  have hev : eventsRead solve cos sin Gui.init (readings [.read (.file content)]) = g.events := by
    simp only [readings, eventsRead, Gui.act, hr, Res.bind, List.append_nil]
    rw [if_neg (by simp [Gui.init])]
  obtain ⟨d2, f, h1, h2, h3, h4, -⟩ := c118_saved [.read (.file content)] g d d1 h ht hne (by rw [hev]; exact hN) P E hPE hP
  rw [hev] at h3
  exact ⟨d2, f, h1, h2, h4, c118_total cos sin f _ h3, List.countP_le_length⟩

/-- C118 for detectors: the user reads the files of detectors whose neutrons can be told apart and saves the picture.  Every number of the
file is then the number of neutrons that belong in that cell, up to those less than 2^-29 pixels from its border.  Missing: the file of
events holds the last detector only, and its times count from multiples of 666667 ticks (`c104_false_tof`). -/
theorem c118_detector_partial (cs sn : ℚ) (hcs : |cs| ≤ 1) (hsn : |sn| ≤ 1)
    (L : List (List Readout × List Int)) (hL : ∀ p ∈ L, Viewable p.1 p.2)
    (hN : (L.flatMap fun p => viewedNeutrons p.1 p.2).length < 2 ^ 53) (P : Path) (hP : HasRoom env P) (d : Disk) :
    ∃ g d' f, guiSession env solve (.fin cs) (.fin sn) Gui.init d
        ((L.map fun p => OpenChoice.file (detectorFile p.1)).map .read ++ [.save (some P) none none]) = .ok (some g, d') ∧
      d' P = some (.other f) ∧ (∀ Q, Q ≠ P → d' Q = d Q) ∧ f.length = 8 * (512 * 512) ∧
      ∀ i j, i < 512 → j < 512 → ∃ n : Nat, doubleAt f (512 * j + i) = n ∧
        neutronsIn cs sn (1 / 2 ^ 29) i j (L.flatMap fun p => viewedNeutrons p.1 p.2) ≤ n ∧
        n ≤ neutronsIn cs sn (-(1 / 2 ^ 29)) i j (L.flatMap fun p => viewedNeutrons p.1 p.2) := by
  obtain ⟨g, h1, ht, h2⟩ := c104_picture solve cs sn hcs hsn L hL hN.le
  have hl : (guiPictureBytes g.histo).length = 8 * (512 * 512) := flatMap_length_const _ 8 (fun k => bytesOf_length _) _
  have hs : guiSession env solve (.fin cs) (.fin sn) Gui.init d ((L.map fun p => OpenChoice.file (detectorFile p.1)).map .read) =
      .ok (some g, d) := session_reads _ _ _ _ (by rw [List.map_map]; exact h1)
  have key : ∀ (cs' : List OpenChoice) (g0 : Gui), guiSession env solve (.fin cs) (.fin sn) g0 d (cs'.map .read) = .ok (some g, d) →
      guiSession env solve (.fin cs) (.fin sn) g0 d (cs'.map .read ++ [.save (some P) none none]) =
        .ok (some g, Function.update d P (some (.other (guiPictureBytes g.histo)))) := by
    intro cs'
    induction cs' with
    | nil =>
      intro g0 h
      simp only [List.map_nil, guiSession, Res.ok.injEq, Prod.mk.injEq, Option.some.injEq, and_true] at h
      subst h
      simp only [List.map_nil, List.nil_append, guiSession, Gui.saveFiles, Gui.savePicture]
      rw [if_neg (by rw [ht]; simp), if_pos hP.1, List.take_of_length_le (by rw [hl]; exact hP.2)]
      simp only [Res.bind]
    | cons c cs' ih =>
      intro g0 h
      simp only [List.map_cons, List.cons_append, guiSession] at h ⊢
      cases hr : g0.readFile solve (.fin cs) (.fin sn) c with
      | ok g1 => rw [hr] at h; exact ih g1 h
      | throws m => rw [hr] at h; simp at h
      | ub u => rw [hr] at h; simp at h
  refine ⟨g, _, _, key _ _ hs, Function.update_self .., fun Q hQ => Function.update_of_ne hQ .., hl, fun i j hi hj => ?_⟩
  obtain ⟨n, n1, n2, n3⟩ := h2 i j hi hj
  refine ⟨n, ?_, n2, n3⟩
  unfold doubleAt guiPictureBytes
  rw [flatMap_slice _ 8 (fun k => bytesOf_length _) _ _ (by omega), lowFirst_eq, leNat_bytesOf,
    show (512 * j + i) % 512 = i by omega, show (512 * j + i) / 512 = j by omega, n1]
  have hc : n < 2 ^ 53 := by
    refine lt_of_le_of_lt (n3.trans ?_) hN
    unfold neutronsIn
    exact List.countP_le_length
  obtain ⟨h1, h2⟩ := binary64_count _ hc
  rw [BitVec.toNat_ofNat, Nat.mod_eq_of_lt h1, h2]

/-! ## What goes wrong -/

/-- C118 fails for one name given twice: the picture is gone. -/
theorem c118_false_same (g : Gui) (ht : g.timer = false) (hne : g.events ≠ []) (P : Path) (hP : env.opens P = true) (d : Disk) :
    ∃ d', g.saveFiles env none (some P) (some P) d = .ok (d', none) ∧ ∀ f, d' P ≠ some (.other f) := by
  obtain ⟨d', h1, h2, h3⟩ := c82_events P g.events
    (Function.update d P (some (.other ((guiPictureBytes g.histo).take (env.room P))))) hne
  refine ⟨d', ?_, fun f => by rw [h2]; simp⟩
  simp only [Gui.saveFiles, Gui.savePicture]
  rw [if_neg (by rw [ht]; simp), if_pos hP]
  simp only [Res.bind, h1]

/-- C118 fails without events: the picture is written, then the program ends with an exception, whatever the user wants next. -/
theorem c118_false_empty (P E : Path) (hP : env.opens P = true) (fault : Option Nat) (d : Disk) (as : List GuiDeed) :
    ∃ d' f, guiSession env solve cos sin Gui.init d (.save (some P) (some E) fault :: as) = .ok (none, d') ∧ d' P = some (.other f) := by
  refine ⟨Function.update d P (some (.other ((guiPictureBytes Gui.init.histo).take (env.room P)))), _, ?_, Function.update_self ..⟩
  simp only [guiSession, Gui.saveFiles, Gui.savePicture]
  rw [if_neg (by simp [Gui.init]), if_pos hP]
  simp only [Res.bind, saveLegacyEvents, Gui.init, if_true]

/-- C118 fails when a call of the HDF5 library fails: the program ends, and the earlier file of events is lost unless the failing call was
the first one. -/
theorem c118_false_fault (g : Gui) (ht : g.timer = false) (hne : g.events ≠ []) (E : Path) (d : Disk) (k : Nat) (hk : k < 12)
    (as : List GuiDeed) :
    ∃ d', guiSession env solve cos sin g d (.save none (some E) (some k) :: as) = .ok (none, d') ∧
      (k ≠ 0 → ∀ content, d' E ≠ some (.other content)) := by
  obtain ⟨⟨m, h1⟩, -, h3, -⟩ := c82_false_atomic E g.events d hne k hk
  refine ⟨(saveLegacyEvents (some k) E g.events d).1, ?_, h3⟩
  simp only [guiSession, Gui.saveFiles, Gui.savePicture]
  rw [if_neg (by rw [ht]; simp)]
  simp only [Res.bind]
  generalize saveLegacyEvents (some k) E g.events d = r at *
  obtain ⟨a, b⟩ := r
  simp only at h1
  subst h1
  rfl

/-- C118 fails when the disk is full: the picture is cut short, and the program goes on as if it were saved. -/
theorem c118_false_full (g : Gui) (ht : g.timer = false) (P : Path) (hP : env.opens P = true) (hr : env.room P < 8 * (512 * 512))
    (d : Disk) (es : List Neutron) :
    ∃ d' f, guiSession env solve cos sin g d [.save (some P) none none] = .ok (some g, d') ∧ d' P = some (.other f) ∧
      ¬ IsGuiPictureOf cos sin f es := by
  have hl : (guiPictureBytes g.histo).length = 8 * (512 * 512) := flatMap_length_const _ 8 (fun k => bytesOf_length _) _
  refine ⟨Function.update d P (some (.other ((guiPictureBytes g.histo).take (env.room P)))), _, ?_, Function.update_self .., fun h => ?_⟩
  · simp only [guiSession, Gui.saveFiles, Gui.savePicture]
    rw [if_neg (by rw [ht]; simp), if_pos hP]
    simp only [Res.bind]
  · have := h.1
    rw [List.length_take, hl] at this
    omega

/-- C118 fails for a name that cannot be opened: undefined behaviour. -/
theorem c118_false_unopened (g : Gui) (ht : g.timer = false) (P : Path) (hP : env.opens P = false) (E : Option Path)
    (fault : Option Nat) (d : Disk) (as : List GuiDeed) :
    guiSession env solve cos sin g d (.save (some P) E fault :: as) = .ub .oobRead := by
  simp only [guiSession, Gui.saveFiles, Gui.savePicture]
  rw [if_neg (by rw [ht]; simp), if_neg (by rw [hP]; simp)]
  simp only [Res.bind]

/-! ## The hypotheses can be met -/

/-- A disk with room. -/
def roomy : SaveEnv := ⟨fun _ => true, fun _ => 2 ^ 40⟩

example : ∃ g d1, guiSession roomy exSolve rotCos rotSin Gui.init (fun _ => none)
      [.save (some ['a']) none none, .range, .read (.file (streamBytes (exGuiFile 0xB123400000110000#64)))] = .ok (some g, d1) ∧
    g.timer = false ∧ g.events.length = 1 ∧ HasRoom roomy ['a'] ∧ (d1 ['a']).isSome ∧
    (eventsRead exSolve rotCos rotSin Gui.init (readings [.save (some ['a']) none none, .range,
      .read (.file (streamBytes (exGuiFile 0xB123400000110000#64)))])).length = 1 := by
  have e : (Gui.init.readFile exSolve rotCos rotSin (.file (streamBytes (exGuiFile 0xB123400000110000#64)))).bind
      (fun g => .ok (g.timer, g.events.length)) = .ok (false, 1) := by decide +kernel
  cases h : Gui.init.readFile exSolve rotCos rotSin (.file (streamBytes (exGuiFile 0xB123400000110000#64))) with
  | ok g =>
    rw [h] at e
    simp only [Res.bind, Res.ok.injEq, Prod.mk.injEq] at e
    refine ⟨g, Function.update (fun _ => none) ['a'] (some (.other (guiPictureBytes Gui.init.histo))), ?_, e.1, e.2, ⟨rfl, by simp [roomy]⟩,
      by rw [Function.update_self]; rfl, ?_⟩
    · have hl : (guiPictureBytes Gui.init.histo).length = 8 * (512 * 512) := flatMap_length_const _ 8 (fun k => bytesOf_length _) _
      simp only [guiSession, Gui.saveFiles, Gui.savePicture]
      rw [if_neg (by simp [Gui.init]), if_pos (show roomy.opens ['a'] = true from rfl), List.take_of_length_le (by rw [hl]; simp [roomy])]
      simp only [Res.bind, h]
    · simp only [readings, eventsRead, Gui.act, h, Res.bind, List.append_nil]
      rw [if_neg (by simp [Gui.init])]
      exact e.2
  | throws m => rw [h] at e; simp [Res.bind] at e
  | ub u => rw [h] at e; simp [Res.bind] at e

end Verif.Props
