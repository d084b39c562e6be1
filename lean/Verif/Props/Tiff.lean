import Verif.Model.Tiff
import Verif.Props.Image

/-!
# Saved images and spectra (C39–C41)
-/

namespace Verif.Props

open Verif Verif.Spec

/-! ## C41 -/

theorem ofDigitChars_zeros (k : Nat) (l : List Char) :
    Nat.ofDigitChars 10 (List.replicate k '0' ++ l) 0 = Nat.ofDigitChars 10 l 0 := by
  induction k with
  | zero => rfl
  | succ k ih =>
    rw [List.replicate_succ, List.cons_append]
    unfold Nat.ofDigitChars at ih ⊢
    rw [List.foldl_cons]
    simpa using ih

theorem pad4_injective {m n : Nat} (h : pad4 m = pad4 n) : m = n := by
  have := congrArg (fun l => Nat.ofDigitChars 10 l 0) h
  unfold pad4 at this
  simpa [ofDigitChars_zeros, Nat.ofDigitChars_toDigits (b := 10) (by norm_num) (by norm_num)] using this

/-- C41: different bins have different file names, for all numbers of bins (also above 9999). -/
theorem c41_names_distinct (out base : Path) (i j : Nat) (h : tiffName out base i = tiffName out base j) : i = j := by
  unfold tiffName at h
  have h1 := List.append_cancel_right h
  have h2 := List.append_cancel_left h1
  have := pad4_injective h2
  omega

theorem tiffName_ne_spectra (out base : Path) (i : Nat) : tiffName out base i ≠ spectraName out base := by
  intro h
  have := congrArg (fun l => l.reverse.head?) h
  simp [tiffName, spectraName] at this

/-- Phase and content after `k` actions for one bin. -/
def tiffIter (img : List (List U32)) (f : Option File) : Nat → TiffPhase × Option File
  | 0 => (.start, f)
  | k + 1 => match tiffAct img (tiffIter img f k).2 (tiffIter img f k).1 with
    | some x => x
    | none => tiffIter img f k

/-- Every bin has made its own actions on its own file, nothing else has changed. -/
structure SaveInv (out base : Path) (im : Stack) (d : Dir) (s : SaveState) : Prop where
  bins : ∀ i img, im[i]? = some img →
    ∃ k, (s.phase i, s.dir (tiffName out base i)) = tiffIter img (d (tiffName out base i)) k
  others : ∀ p, (∀ i, i < im.length → p ≠ tiffName out base i) → s.dir p = d p

theorem saveInv (out base : Path) (im : Stack) (d : Dir) (s : SaveState)
    (h : SaveReach out base im (SaveState.init d) s) : SaveInv out base im d s := by
  induction h with
  | refl =>
    exact ⟨fun i img _ => ⟨0, rfl⟩, fun _ _ => rfl⟩
  | step h1 h2 ih =>
    obtain ⟨hb, ho⟩ := ih
    obtain ⟨i, img, ph, f, e1, e2, rfl⟩ := h2
    constructor
    · intro j img' hj
      by_cases hij : j = i
      · subst hij
        rw [e1] at hj; injection hj with hj; subst hj
        obtain ⟨k, hk⟩ := hb j img e1
        refine ⟨k + 1, ?_⟩
        simp only [Function.update_self]
        rw [tiffIter, ← hk]
        simp only
        rw [e2]
      · obtain ⟨k, hk⟩ := hb j img' hj
        refine ⟨k, ?_⟩
        simp only
        rw [Function.update_of_ne hij, Function.update_of_ne (fun e => hij (c41_names_distinct out base _ _ e))]
        exact hk
    · intro p hp
      obtain ⟨hi', -⟩ := List.getElem?_eq_some_iff.mp e1
      simp only
      rw [Function.update_of_ne (hp i hi')]
      exact ho p hp

/-- What a bin leaves in its file, from the previous content. -/
def SavedAs (img : List (List U32)) (f f' : Option File) : Prop :=
  ∃ a t, accumulate img f = .ok a ∧ writeTiff img a = .ok t ∧ f' = some (.tiff t)

/-- The phases in order. -/
theorem tiffIter_spec (img : List (List U32)) (f : Option File) (k : Nat) :
    match tiffIter img f k with
    | (.start, g) => g = f
    | (.acc a, g) => accumulate img f = .ok a ∧ g = f
    | (.opened a, _) => accumulate img f = .ok a
    | (.done, g) => SavedAs img f g
    | (.failed _, _) => True := by
  induction k with
  | zero => rfl
  | succ k ih =>
    rw [tiffIter]
    rcases hk : tiffIter img f k with ⟨ph, g⟩
    rw [hk] at ih
    cases ph with
    | start =>
      simp only at ih
      subst ih
      simp only [tiffAct]
      cases ha : accumulate img g with
      | ok a => simp only [and_self]
      | ub u => simp only
      | throws m => simp only
    | acc a => simp only [tiffAct]; exact ih.1
    | opened a =>
      simp only at ih
      simp only [tiffAct]
      cases hw : writeTiff img a with
      | ok t => simp only; exact ⟨a, t, ih, hw, rfl⟩
      | ub u => simp only
      | throws m => simp only; exact ih
    | done => simp only [tiffAct]; exact ih
    | failed u => simp only [tiffAct]

/-- C41: whatever the schedule, when all bins are done each file holds what its own bin makes of its former content,
and no other file has changed. -/
theorem c41_result (out base : Path) (im : Stack) (d : Dir) (s : SaveState)
    (h : SaveReach out base im (SaveState.init d) s) (hd : ∀ i, i < im.length → s.phase i = .done) :
    (∀ i img, im[i]? = some img → SavedAs img (d (tiffName out base i)) (s.dir (tiffName out base i))) ∧
    (∀ p, (∀ i, i < im.length → p ≠ tiffName out base i) → s.dir p = d p) := by
  have hinv := saveInv out base im d s h
  refine ⟨?_, hinv.others⟩
  intro i img hi
  obtain ⟨hi', -⟩ := List.getElem?_eq_some_iff.mp hi
  obtain ⟨k, hk⟩ := hinv.bins i img hi
  have := tiffIter_spec img (d (tiffName out base i)) k
  rw [← hk, hd i hi'] at this
  exact this

theorem SavedAs.unique {img : List (List U32)} {f g g' : Option File} (h : SavedAs img f g) (h' : SavedAs img f g') :
    g = g' := by
  obtain ⟨a, t, h1, h2, h3⟩ := h
  obtain ⟨a', t', h1', h2', h3'⟩ := h'
  rw [h1] at h1'; injection h1' with e; subst e
  rw [h2] at h2'; injection h2' with e; subst e
  rw [h3, h3']

/-- C41: the directory after a complete run does not depend on the schedule. -/
theorem c41_schedule_independent (out base : Path) (edges : List F64) (im : Stack) (d d1 d2 : Dir)
    (h1 : SaveRun out base edges im d d1) (h2 : SaveRun out base edges im d d2) : d1 = d2 := by
  obtain ⟨s1, r1, a1, b1, c1, rfl⟩ := h1
  obtain ⟨s2, r2, a2, b2, c2, rfl⟩ := h2
  rw [c1] at c2; injection c2 with c2; subst c2
  have : s1.dir = s2.dir := by
    funext p
    by_cases hp : ∃ i, i < im.length ∧ p = tiffName out base i
    · obtain ⟨i, hi, rfl⟩ := hp
      exact ((c41_result out base im d s1 a1 b1).1 i _ (List.getElem?_eq_getElem hi)).unique
        ((c41_result out base im d s2 a2 b2).1 i _ (List.getElem?_eq_getElem hi))
    · push Not at hp
      rw [(c41_result out base im d s1 a1 b1).2 p hp, (c41_result out base im d s2 a2 b2).2 p hp]
  rw [this]

/-! ## C39 -/

/-- The file holds `d × d` samples, `f y x` modulo 2^32 at row `y`, column `x`. -/
structure Holds (d : Nat) (t : Tiff) (f : Nat → Nat → Nat) : Prop where
  width : t.width = d
  height : t.height = d
  rows : t.rows.length = d
  cols : ∀ r ∈ t.rows, r.length = d
  value : ∀ y x, y < d → x < d → (t.rows[y]?.bind fun r => r[x]?).map BitVec.toNat = some (f y x % 2 ^ 32)

/-- A rectangular image. -/
structure Square (d : Nat) (img : List (List U32)) : Prop where
  rows : img.length = d
  cols : ∀ r ∈ img, r.length = d

theorem addRows_spec (w : Nat) (old : List (List U32)) (k : Nat) (rows : List (List U32))
    (h : ∀ r ∈ rows, r.length = w) :
    ∃ rs, addRows w old k rows = .ok rs ∧ rs.length = rows.length ∧ (∀ r ∈ rs, r.length = w) ∧
      ∀ y x, rs[y]?.bind (fun r => r[x]?) =
        (rows[y]?.bind fun r => r[x]?).map fun v => v + (old.getD (k + y) []).getD x 0 := by
  induction rows generalizing k with
  | nil => exact ⟨[], rfl, rfl, by simp, by simp⟩
  | cons r rows ih =>
    have hr : r.length = w := h r (by simp)
    obtain ⟨rs, e1, e2, e3, e4⟩ := ih (k + 1) fun r' hr' => h r' (by simp [hr'])
    have ha : addRow w r (old.getD k []) = .ok (r.mapIdx fun k' v => if k' < w then v + (old.getD k []).getD k' 0 else v) := by
      unfold addRow
      rw [if_neg (by omega)]
    refine ⟨(r.mapIdx fun k' v => if k' < w then v + (old.getD k []).getD k' 0 else v) :: rs, ?_, ?_, ?_, ?_⟩
    · rw [addRows, ha]
      simp only [bind, Res.bind]
      rw [e1]
    · simp [e2]
    · intro r' hr'
      rcases List.mem_cons.mp hr' with rfl | hr'
      · simp [hr]
      · exact e3 r' hr'
    · intro y x
      cases y with
      | zero =>
        simp only [List.getElem?_cons_zero, Option.bind_some, Nat.add_zero, List.getElem?_mapIdx]
        cases hx : r[x]? with
        | none => rfl
        | some v =>
          obtain ⟨hx', -⟩ := List.getElem?_eq_some_iff.mp hx
          simp only [Option.map_some]
          rw [if_pos (by omega)]
      | succ y =>
        simp only [List.getElem?_cons_succ]
        rw [e4 y x, show k + 1 + y = k + (y + 1) by omega]

/-- Pixel of one image. -/
def imgPixel (img : List (List U32)) (y x : Nat) : Nat := ((img[y]?.bind fun r => r[x]?).map BitVec.toNat).getD 0

theorem square_get {d : Nat} {img : List (List U32)} (h : Square d img) (y x : Nat) (hy : y < d) (hx : x < d) :
    ∃ v, img[y]?.bind (fun r => r[x]?) = some v ∧ imgPixel img y x = v.toNat := by
  have hy' : y < img.length := by rw [h.rows]; exact hy
  have hx' : x < img[y].length := by rw [h.cols _ (List.getElem_mem hy')]; exact hx
  have : img[y]?.bind (fun r => r[x]?) = some img[y][x] := by
    rw [List.getElem?_eq_getElem hy']
    simp only [Option.bind_some]
    rw [List.getElem?_eq_getElem hx']
  exact ⟨img[y][x], this, by unfold imgPixel; rw [this]; rfl⟩

theorem writeTiff_square {d : Nat} {img a : List (List U32)} (h : Square d img) (hd : 0 < d) (ha : Square d a) :
    writeTiff img a = .ok ⟨d, d, a⟩ := by
  cases img with
  | nil => have := h.rows; simp at this; omega
  | cons first rest =>
    have hf : first.length = d := h.cols first (by simp)
    unfold writeTiff
    simp only
    rw [if_pos]
    · rw [hf, h.rows]
      congr 2
      conv_rhs => rw [← List.map_id a]
      apply List.map_congr_left
      intro r hr
      rw [List.take_of_length_le (by rw [ha.cols r hr]), id]
    · rw [List.all_eq_true]
      intro r hr
      simp [ha.cols r hr, hf]

/-- A first save, or one over a file that is no image of the same size: the file is the image. -/
theorem saved_fresh_eq {d : Nat} {img : List (List U32)} (h : Square d img) (hd : 0 < d) (f f' : Option File)
    (hf : ∀ t, f = some (.tiff t) → t.width ≠ d ∨ t.height ≠ d) (hs : SavedAs img f f') :
    f' = some (.tiff ⟨d, d, img⟩) := by
  obtain ⟨a, t, h1, h2, h3⟩ := hs
  have ha : a = img := by
    cases img with
    | nil => have := h.rows; simp at this; omega
    | cons first rest =>
      unfold accumulate at h1
      cases f with
      | none => simp only [Res.ok.injEq] at h1; exact h1.symm
      | some g =>
        cases g with
        | tiff t =>
          have hfl : first.length = d := h.cols first (by simp)
          have := hf t rfl
          simp only at h1
          rw [if_neg (by rw [hfl, h.rows]; tauto)] at h1
          injection h1 with h1
          exact h1.symm
        | unreadable => simp only [Res.ok.injEq] at h1; exact h1.symm
        | spectra r => simp only [Res.ok.injEq] at h1; exact h1.symm
  subst ha
  rw [writeTiff_square h hd h] at h2
  injection h2 with h2
  subst h2
  exact h3

theorem saved_fresh {d : Nat} {img : List (List U32)} (h : Square d img) (hd : 0 < d) (f f' : Option File)
    (hf : ∀ t, f ≠ some (.tiff t)) (hs : SavedAs img f f') :
    ∃ t, f' = some (.tiff t) ∧ Holds d t (imgPixel img) := by
  have h3 := saved_fresh_eq h hd f f' (fun t ht => absurd ht (hf t)) hs
  refine ⟨_, h3, rfl, rfl, h.rows, h.cols, ?_⟩
  intro y x hy hx
  obtain ⟨v, e1, e2⟩ := square_get h y x hy hx
  simp only
  rw [e1, e2, Nat.mod_eq_of_lt v.isLt]
  rfl

/-- Saving over an image of the same size adds. -/
theorem saved_over {d : Nat} {img : List (List U32)} (h : Square d img) (hd : 0 < d) (t : Tiff) (g : Nat → Nat → Nat)
    (ht : Holds d t g) (f' : Option File) (hs : SavedAs img (some (.tiff t)) f') :
    ∃ t', f' = some (.tiff t') ∧ Holds d t' fun y x => g y x + imgPixel img y x := by
  obtain ⟨a, t', h1, h2, h3⟩ := hs
  obtain ⟨rs, e1, e2, e3, e4⟩ := addRows_spec d t.rows 0 img h.cols
  have ha : a = rs := by
    cases img with
    | nil => have := h.rows; simp at this; omega
    | cons first rest =>
      have hf : first.length = d := h.cols first (by simp)
      unfold accumulate at h1
      simp only at h1
      rw [if_pos ⟨by rw [ht.width, hf], by rw [ht.height, h.rows]⟩, hf, e1] at h1
      injection h1 with h1
      exact h1.symm
  subst ha
  have hsq : Square d a := ⟨by rw [e2, h.rows], e3⟩
  rw [writeTiff_square h hd hsq] at h2
  injection h2 with h2
  subst h2
  refine ⟨_, h3, rfl, rfl, hsq.rows, hsq.cols, ?_⟩
  intro y x hy hx
  obtain ⟨v, g1, g2⟩ := square_get h y x hy hx
  have hv := ht.value y x hy hx
  obtain ⟨w, hw, hw'⟩ := Option.map_eq_some_iff.mp hv
  simp only
  rw [e4 y x, g1]
  have : (t.rows.getD (0 + y) []).getD x 0 = w := by
    obtain ⟨r, hr1, hr2⟩ := Option.bind_eq_some_iff.mp hw
    have e1 : t.rows.getD (0 + y) [] = r := by rw [Nat.zero_add, List.getD_eq_getElem?_getD, hr1, Option.getD_some]
    rw [e1, List.getD_eq_getElem?_getD, hr2, Option.getD_some]
  rw [this]
  simp only [Option.map_some, Option.some.injEq, BitVec.toNat_add]
  rw [g2, hw']
  omega

theorem shaped_square {n d : Nat} {im : Stack} (h : Shaped n d im) (i : Nat) (img : List (List U32))
    (hi : im[i]? = some img) : Square d img :=
  ⟨h.rows _ (List.mem_of_getElem? hi), h.cols _ (List.mem_of_getElem? hi)⟩

/-- Sum over stacks of a pixel. -/
def stackSum (ims : List Stack) (i y x : Nat) : Nat := (ims.map fun im => (pixel im i y x).getD 0).sum

theorem imgPixel_pixel {im : Stack} {i : Nat} {img : List (List U32)} (h : im[i]? = some img) (y x : Nat) :
    imgPixel img y x = (pixel im i y x).getD 0 := by
  unfold imgPixel pixel
  rw [h]
  rfl

/-- One save in a directory. -/
theorem saveRun_result {n d : Nat} {im : Stack} (h : Shaped n d im) (out base : Path) (edges : List F64) (d0 d1 : Dir)
    (hr : SaveRun out base edges im d0 d1) :
    (∀ i img, im[i]? = some img → SavedAs img (d0 (tiffName out base i)) (d1 (tiffName out base i))) ∧
    (∀ i, n ≤ i → d1 (tiffName out base i) = d0 (tiffName out base i)) := by
  obtain ⟨s, rows, h1, h2, -, rfl⟩ := hr
  obtain ⟨g1, g2⟩ := c41_result out base im d0 s h1 h2
  constructor
  · intro i img hi
    rw [Function.update_of_ne (tiffName_ne_spectra out base i)]
    exact g1 i img hi
  · intro i hi
    rw [Function.update_of_ne (tiffName_ne_spectra out base i)]
    apply g2
    intro j hj e
    have := c41_names_distinct _ _ _ _ e
    rw [h.len] at hj
    omega

theorem saveRuns_over {n d : Nat} (hd : 0 < d) (out base : Path) (edges : List F64) (ims : List Stack)
    (hs : ∀ im ∈ ims, Shaped n d im) (d0 d1 : Dir) (hr : SaveRuns out base edges ims d0 d1) (i : Nat) (hi : i < n)
    (t : Tiff) (g : Nat → Nat → Nat) (h0 : d0 (tiffName out base i) = some (.tiff t)) (ht : Holds d t g) :
    ∃ t', d1 (tiffName out base i) = some (.tiff t') ∧ Holds d t' fun y x => g y x + stackSum ims i y x := by
  induction hr generalizing t g with
  | nil d' => exact ⟨t, h0, by simpa [stackSum] using ht⟩
  | cons h1 h2 ih =>
    rename_i im ims d d' d''
    have hsh := hs im (by simp)
    have hlt : i < im.length := by rw [hsh.len]; exact hi
    have hsv := (saveRun_result hsh out base edges _ _ h1).1 i _ (List.getElem?_eq_getElem hlt)
    rw [h0] at hsv
    obtain ⟨t1, e1, e2⟩ := saved_over (shaped_square hsh i _ (List.getElem?_eq_getElem hlt)) hd t g ht _ hsv
    obtain ⟨t', e3, e4⟩ := ih (fun im' hm => hs im' (by simp [hm])) t1 _ e1 e2
    refine ⟨t', e3, ?_⟩
    refine ⟨e4.width, e4.height, e4.rows, e4.cols, ?_⟩
    intro y x hy hx
    rw [e4.value y x hy hx]
    unfold stackSum
    rw [List.map_cons, List.sum_cons, imgPixel_pixel (List.getElem?_eq_getElem hlt)]
    congr 2
    omega

/-- C39: after saving any non-empty sequence of stacks of one size, each by any schedule, into a directory without
such images, every file holds for every pixel the sum over the stacks (modulo 2^32). -/
theorem c39_accumulates {n d : Nat} (hd : 0 < d) (out base : Path) (edges : List F64) (ims : List Stack)
    (hne : ims ≠ []) (hs : ∀ im ∈ ims, Shaped n d im) (d0 d1 : Dir)
    (h0 : ∀ i t, d0 (tiffName out base i) ≠ some (.tiff t)) (hr : SaveRuns out base edges ims d0 d1) (i : Nat) (hi : i < n) :
    ∃ t, d1 (tiffName out base i) = some (.tiff t) ∧ t.width = d ∧ t.height = d ∧
      ∀ y x, y < d → x < d → (t.rows[y]?.bind fun r => r[x]?).map BitVec.toNat = some (stackSum ims i y x % 2 ^ 32) := by
  cases hr with
  | nil => exact absurd rfl hne
  | cons h1 h2 =>
    rename_i im ims d'
    have hsh := hs im (by simp)
    have hlt : i < im.length := by rw [hsh.len]; exact hi
    have hsv := (saveRun_result hsh out base edges _ _ h1).1 i _ (List.getElem?_eq_getElem hlt)
    obtain ⟨t1, e1, e2⟩ := saved_fresh (shaped_square hsh i _ (List.getElem?_eq_getElem hlt)) hd _ _ (h0 i) hsv
    obtain ⟨t', e3, e4⟩ := saveRuns_over hd out base edges ims (fun im' hm => hs im' (by simp [hm])) _ _ h2 i hi t1 _ e1 e2
    refine ⟨t', e3, e4.width, e4.height, ?_⟩
    intro y x hy hx
    rw [e4.value y x hy hx]
    unfold stackSum
    rw [List.map_cons, List.sum_cons, imgPixel_pixel (List.getElem?_eq_getElem hlt)]

/-- C39, other sizes: a file of another size is overwritten and its counts are lost. -/
theorem c39_size_change {n d : Nat} (hd : 0 < d) (out base : Path) (edges : List F64) (im : Stack) (hs : Shaped n d im)
    (d0 d1 : Dir) (hr : SaveRun out base edges im d0 d1) (i : Nat) (img : List (List U32)) (hi : im[i]? = some img)
    (t : Tiff) (h0 : d0 (tiffName out base i) = some (.tiff t)) (hdim : t.width ≠ d ∨ t.height ≠ d) :
    d1 (tiffName out base i) = some (.tiff ⟨d, d, img⟩) := by
  have hsv := (saveRun_result hs out base edges _ _ hr).1 i img hi
  rw [h0] at hsv
  refine saved_fresh_eq (shaped_square hs i img hi) hd _ _ ?_ hsv
  intro t' e
  injection e with e; injection e with e; subst e
  exact hdim

/-- C39, no batches: the stack made by `timedCreateTOFImages` without batches has images without rows
(`c38_false_empty`); saving such a stack cannot complete, and the first action for the bin is an invalid read. -/
theorem c39_empty_images (out base : Path) (edges : List F64) (im : Stack) (d0 d1 : Dir) (i : Nat)
    (hi : im[i]? = some []) : ¬ SaveRun out base edges im d0 d1 ∧
      SaveStep out base im (SaveState.init d0)
        ⟨Function.update d0 (tiffName out base i) (d0 (tiffName out base i)),
          Function.update (fun _ => .start) i (.failed .oobRead)⟩ := by
  constructor
  · rintro ⟨s, rows, h1, h2, -, -⟩
    obtain ⟨a, t, g1, -⟩ := (c41_result out base im d0 s h1 h2).1 i [] hi
    simp [accumulate] at g1
  · exact ⟨i, [], _, _, hi, rfl, rfl⟩

/-! ## Progress and termination of a save -/

theorem accumulate_square {d : Nat} {img : List (List U32)} (h : Square d img) (hd : 0 < d) (f : Option File) :
    ∃ a, accumulate img f = .ok a ∧ Square d a := by
  obtain ⟨first, rest, rfl⟩ : ∃ a l, img = a :: l := by
    cases img with
    | nil => have := h.rows; simp at this; omega
    | cons a l => exact ⟨a, l, rfl⟩
  have hfl : first.length = d := h.cols first (by simp)
  unfold accumulate
  cases f with
  | none => exact ⟨_, rfl, h⟩
  | some g =>
    cases g with
    | tiff t =>
      simp only
      split_ifs with hc
      · obtain ⟨rs, e1, e2, e3, -⟩ := addRows_spec first.length t.rows 0 (first :: rest) (by rw [hfl]; exact h.cols)
        exact ⟨rs, e1, by rw [e2, h.rows], by rw [← hfl]; exact e3⟩
      · exact ⟨_, rfl, h⟩
    | unreadable => exact ⟨_, rfl, h⟩
    | spectra r => exact ⟨_, rfl, h⟩

theorem tiffIter_square {d : Nat} {img : List (List U32)} (h : Square d img) (hd : 0 < d) (f : Option File) (k : Nat) :
    ∀ ph g, tiffIter img f k = (ph, g) → match ph with
    | .acc a => Square d a
    | .opened a => Square d a
    | .failed _ => False
    | _ => True := by
  have hacc := accumulate_square h hd
  induction k with
  | zero => intro ph g e; simp only [tiffIter, Prod.mk.injEq] at e; obtain ⟨rfl, -⟩ := e; trivial
  | succ k ih =>
    intro ph g e
    rw [tiffIter] at e
    rcases hk : tiffIter img f k with ⟨ph0, g0⟩
    rw [hk] at e
    have := ih ph0 g0 hk
    cases ph0 with
    | start =>
      obtain ⟨a, ha, hsq⟩ := hacc g0
      simp only [tiffAct, ha, Prod.mk.injEq] at e
      obtain ⟨rfl, -⟩ := e
      exact hsq
    | acc a =>
      simp only [tiffAct, Prod.mk.injEq] at e
      obtain ⟨rfl, -⟩ := e
      exact this
    | opened a =>
      simp only [tiffAct, writeTiff_square h hd this, Prod.mk.injEq] at e
      obtain ⟨rfl, -⟩ := e
      trivial
    | done => simp only [tiffAct, Prod.mk.injEq] at e; obtain ⟨rfl, -⟩ := e; trivial
    | failed u => exact this.elim

/-- Actions still to do for a bin. -/
def toDo : TiffPhase → Nat
  | .start => 3
  | .acc _ => 2
  | .opened _ => 1
  | .done => 0
  | .failed _ => 0

/-- C41: a bin never gets stuck before it is done: in every reachable state every unfinished bin has an action. -/
theorem c41_progress {n d : Nat} (hd : 0 < d) (out base : Path) (im : Stack) (hs : Shaped n d im) (d0 : Dir) (s : SaveState)
    (h : SaveReach out base im (SaveState.init d0) s) (i : Nat) (hi : i < n) (hnd : s.phase i ≠ .done) :
    ∃ s', SaveStep out base im s s' ∧ toDo (s'.phase i) + 1 = toDo (s.phase i) ∧
      ∀ j, j ≠ i → s'.phase j = s.phase j := by
  have hlt : i < im.length := by rw [hs.len]; exact hi
  have hget := List.getElem?_eq_getElem hlt
  obtain ⟨k, hk⟩ := (saveInv out base im d0 s h).bins i _ hget
  have hsq := shaped_square hs i _ hget
  have h1 := tiffIter_square hsq hd (d0 (tiffName out base i)) k _ _ hk.symm
  have key : ∃ ph f, tiffAct im[i] (s.dir (tiffName out base i)) (s.phase i) = some (ph, f) ∧
      toDo ph + 1 = toDo (s.phase i) := by
    cases hp : s.phase i with
    | start =>
      obtain ⟨a, ha, -⟩ := accumulate_square hsq hd (s.dir (tiffName out base i))
      exact ⟨.acc a, s.dir (tiffName out base i), by simp only [tiffAct, ha], rfl⟩
    | acc a => exact ⟨_, _, rfl, rfl⟩
    | opened a =>
      rw [hp] at h1
      exact ⟨_, _, by simp only [tiffAct, writeTiff_square hsq hd h1]; rfl, rfl⟩
    | done => exact absurd hp hnd
    | failed u => rw [hp] at h1; exact h1.elim
  obtain ⟨ph, f, e1, e2⟩ := key
  refine ⟨_, ⟨i, _, ph, f, hget, e1, rfl⟩, ?_, ?_⟩
  · simp only [Function.update_self]; exact e2
  · intro j hj
    simp only
    exact Function.update_of_ne hj _ _

theorem sum_range_dec (f g : Nat → Nat) (n i : Nat) (hi : i < n) (h1 : g i < f i) (h2 : ∀ j, j ≠ i → g j = f j) :
    ((List.range n).map g).sum < ((List.range n).map f).sum := by
  induction n with
  | zero => omega
  | succ n ih =>
    rw [List.range_succ, List.map_append, List.map_append, List.sum_append, List.sum_append]
    simp only [List.map_cons, List.map_nil, List.sum_cons, List.sum_nil]
    by_cases hin : i < n
    · have := ih hin
      rw [h2 n (by omega)]
      omega
    · have : i = n := by omega
      subst this
      rw [List.map_congr_left (g := f) fun j hj => h2 j (by have := List.mem_range.mp hj; omega)]
      omega

/-- Actions still to do. -/
def toDoAll (n : Nat) (s : SaveState) : Nat := ((List.range n).map fun i => toDo (s.phase i)).sum

/-- C41: every action brings the end nearer, so a save makes at most three actions per bin. -/
theorem c41_terminates (out base : Path) (im : Stack) (s s' : SaveState) (h : SaveStep out base im s s') :
    toDoAll im.length s' < toDoAll im.length s := by
  obtain ⟨i, img, ph, f, e1, e2, rfl⟩ := h
  obtain ⟨hi, -⟩ := List.getElem?_eq_some_iff.mp e1
  refine sum_range_dec _ _ _ i hi ?_ ?_
  · simp only [Function.update_self]
    cases hp : s.phase i with
    | start =>
      rw [hp] at e2
      unfold tiffAct at e2
      cases ha : accumulate img (s.dir (tiffName out base i)) with
      | ok a => rw [ha] at e2; simp at e2; rw [← e2.1]; simp [toDo]
      | ub u => rw [ha] at e2; simp at e2; rw [← e2.1]; simp [toDo]
      | throws m => rw [ha] at e2; simp at e2
    | acc a => rw [hp] at e2; simp [tiffAct] at e2; rw [← e2.1]; simp [toDo]
    | opened a =>
      rw [hp] at e2
      unfold tiffAct at e2
      simp only at e2
      cases ha : writeTiff img a with
      | ok a => rw [ha] at e2; simp at e2; rw [← e2.1]; simp [toDo]
      | ub u => rw [ha] at e2; simp at e2; rw [← e2.1]; simp [toDo]
      | throws m => rw [ha] at e2; simp at e2
    | done => rw [hp] at e2; simp [tiffAct] at e2
    | failed u => rw [hp] at e2; simp [tiffAct] at e2
  · intro j hj
    simp only
    rw [Function.update_of_ne hj]

/-- A save of images of one size completes: every started save can be finished. -/
theorem c41_completes {n d : Nat} (hd : 0 < d) (out base : Path) (im : Stack) (hs : Shaped n d im) (d0 : Dir) (s : SaveState)
    (h : SaveReach out base im (SaveState.init d0) s) :
    ∃ s', SaveReach out base im (SaveState.init d0) s' ∧ ∀ i, i < im.length → s'.phase i = .done := by
  generalize hm : toDoAll im.length s = m
  induction m using Nat.strong_induction_on generalizing s with
  | _ m ih =>
    by_cases hall : ∀ i, i < im.length → s.phase i = .done
    · exact ⟨s, h, hall⟩
    · push Not at hall
      obtain ⟨i, hi, hnd⟩ := hall
      obtain ⟨s', h1, -, -⟩ := c41_progress hd out base im hs d0 s h i (by rw [← hs.len]; exact hi) hnd
      exact ih _ (by rw [← hm]; exact c41_terminates out base im s s' h1) s' (.step h h1) rfl

/-- The whole call completes when there is one more edge than images. -/
theorem saveRun_exists {n d : Nat} (hd : 0 < d) (out base : Path) (edges : List F64) (im : Stack) (hs : Shaped n d im)
    (he : edges.length = n + 1) (d0 : Dir) : ∃ d1, SaveRun out base edges im d0 d1 := by
  obtain ⟨s, h1, h2⟩ := c41_completes hd out base im hs d0 _ (.refl _)
  refine ⟨_, s, edges.tail.zip (spectralCounts im), h1, h2, ?_, rfl⟩
  unfold spectraRows
  rw [if_neg]
  rintro (h | h)
  · rw [h] at he; simp at he
  · unfold spectralCounts at h
    rw [List.length_map, hs.len] at h
    omega

theorem saveRuns_exists {n d : Nat} (hd : 0 < d) (out base : Path) (edges : List F64) (ims : List Stack)
    (hs : ∀ im ∈ ims, Shaped n d im) (he : edges.length = n + 1) (d0 : Dir) : ∃ d1, SaveRuns out base edges ims d0 d1 := by
  induction ims generalizing d0 with
  | nil => exact ⟨d0, .nil d0⟩
  | cons im ims ih =>
    obtain ⟨d1, h1⟩ := saveRun_exists hd out base edges im (hs im (by simp)) he d0
    obtain ⟨d2, h2⟩ := ih (fun im' h => hs im' (by simp [h])) d1
    exact ⟨d2, .cons h1 h2⟩

/-- The hypotheses of `c39_accumulates` can be met: any stacks of one size, an empty directory. -/
example : ∃ d1, SaveRuns "out".toList "run".toList [.fin 0, .fin 1, .fin 2]
    [[[[1#32]], [[2#32]]], [[[10#32]], [[4294967295#32]]]] (fun _ => none) d1 ∧
    ∃ t, d1 (tiffName "out".toList "run".toList 1) = some (.tiff t) ∧
      (t.rows[0]?.bind fun r => r[0]?).map BitVec.toNat = some 1 := by
  have hs : ∀ im ∈ [[[[1#32]], [[2#32]]], [[[10#32]], [[4294967295#32]]]], Shaped 2 1 im := by
    intro im him
    simp only [List.mem_cons, List.not_mem_nil, or_false] at him
    rcases him with rfl | rfl <;> exact ⟨rfl, by simp, by simp⟩
  obtain ⟨d1, h1⟩ := saveRuns_exists (n := 2) (d := 1) (by omega) "out".toList "run".toList [.fin 0, .fin 1, .fin 2] _ hs rfl
    (fun _ => none)
  obtain ⟨t, g1, g2, g3, g4⟩ := c39_accumulates (by omega) _ _ _ _ (by simp) hs _ _ (by simp) h1 1 (by omega)
  refine ⟨d1, h1, t, g1, ?_⟩
  rw [g4 0 0 (by omega) (by omega)]
  simp [stackSum, pixel]

/-- An interrupted save loses counts: for every saved image there is a reachable state in which its file no longer
holds one, and a later save from there holds only its own counts. -/
theorem c39_interrupted {n d : Nat} (hd : 0 < d) (out base : Path) (edges : List F64) (im : Stack) (hs : Shaped n d im)
    (d0 : Dir) (i : Nat) (hi : i < n) :
    ∃ s, SaveReach out base im (SaveState.init d0) s ∧ s.dir (tiffName out base i) = some .unreadable ∧
      ∀ im' img' d1, Shaped n d im' → im'[i]? = some img' → SaveRun out base edges im' s.dir d1 →
        d1 (tiffName out base i) = some (.tiff ⟨d, d, img'⟩) := by
  have hlt : i < im.length := by rw [hs.len]; exact hi
  have hget := List.getElem?_eq_getElem hlt
  have hsq := shaped_square hs i _ hget
  obtain ⟨s1, h1, h2, -⟩ := c41_progress hd out base im hs d0 _ (.refl _) i hi (by simp [SaveState.init])
  simp only [SaveState.init] at h2
  have hacc : ∃ a, s1.phase i = .acc a := by
    cases hp : s1.phase i with
    | acc a => exact ⟨a, rfl⟩
    | start => rw [hp] at h2; simp [toDo] at h2
    | opened a => rw [hp] at h2; simp [toDo] at h2
    | done => rw [hp] at h2; simp [toDo] at h2
    | failed u => rw [hp] at h2; simp [toDo] at h2
  obtain ⟨a, ha⟩ := hacc
  refine ⟨⟨Function.update s1.dir (tiffName out base i) (some .unreadable), Function.update s1.phase i (.opened a)⟩,
    .step (.step (.refl _) h1) ⟨i, im[i], _, _, hget, by rw [ha]; rfl, rfl⟩, Function.update_self _ _ _, ?_⟩
  intro im' img' d1 hs' hi' hr
  have hsv := (saveRun_result hs' out base edges _ _ hr).1 i img' hi'
  simp only [Function.update_self] at hsv
  exact saved_fresh_eq (shaped_square hs' i img' hi') hd _ _ (by simp) hsv

/-! ## C40 -/

theorem imageSum_le {d : Nat} {img : List (List U32)} (h : Square d img) : imageSum img ≤ d * (d * (2 ^ 32 - 1)) := by
  have hrow : ∀ r : List U32, (r.map BitVec.toNat).sum ≤ r.length * (2 ^ 32 - 1) := by
    intro r
    have := List.sum_le_card_nsmul (r.map BitVec.toNat) (2 ^ 32 - 1) (by
      intro x hx
      obtain ⟨v, -, rfl⟩ := List.mem_map.mp hx
      have := v.isLt
      omega)
    simpa using this
  have := List.sum_le_card_nsmul (img.map fun row => (row.map BitVec.toNat).sum) (d * (2 ^ 32 - 1)) (by
      intro x hx
      obtain ⟨r, hr, rfl⟩ := List.mem_map.mp hx
      have := hrow r
      rw [h.cols r hr] at this
      exact this)
  rw [List.length_map, h.rows] at this
  unfold imageSum
  simpa using this

/-- After any save the spectrum holds, for every bin, its upper edge and the total of the image given to that save. -/
theorem c40_last_save {n d : Nat} (hd : d < 2 ^ 16) (out base : Path) (edges : List F64) (im : Stack) (hs : Shaped n d im)
    (he : edges.length = n + 1) (d0 d1 : Dir) (hr : SaveRun out base edges im d0 d1) :
    ∃ rows, d1 (spectraName out base) = some (.spectra rows) ∧ rows.length = n ∧
      ∀ i img, im[i]? = some img → ∃ hi c, edges[i + 1]? = some hi ∧ rows[i]? = some (hi, c) ∧ c.toNat = imageSum img := by
  obtain ⟨s, rows, -, -, h3, rfl⟩ := hr
  refine ⟨rows, Function.update_self _ _ _, ?_, ?_⟩
  all_goals
    unfold spectraRows at h3
    split_ifs at h3 with hc
    injection h3 with h3
    subst h3
  · unfold spectralCounts
    rw [List.length_zip, List.length_tail, List.length_map, hs.len, he]
    omega
  · intro i img hi
    obtain ⟨hlt, -⟩ := List.getElem?_eq_some_iff.mp hi
    have hlt' : i + 1 < edges.length := by rw [he]; rw [hs.len] at hlt; omega
    have hcount : (spectralCounts im)[i]? = some (img.foldl (fun s row => s + row.foldl (fun s v => s + v.setWidth 64) 0#64) 0#64) := by
      unfold spectralCounts; rw [List.getElem?_map, hi]; rfl
    refine ⟨edges[i + 1], img.foldl (fun s row => s + row.foldl (fun s v => s + v.setWidth 64) 0#64) 0#64,
      List.getElem?_eq_getElem hlt', ?_, ?_⟩
    · rw [List.getElem?_zip_eq_some]
      refine ⟨?_, hcount⟩
      rw [List.getElem?_tail, List.getElem?_eq_getElem hlt']
    · rw [spectral_image]
      have h1 := imageSum_le (shaped_square hs i img hi)
      have h2 : d * (d * (2 ^ 32 - 1)) ≤ 2 ^ 16 * (2 ^ 16 * (2 ^ 32 - 1)) :=
        Nat.mul_le_mul (by omega) (Nat.mul_le_mul_right _ (by omega))
      simp only [BitVec.toNat_ofNat, Nat.reducePow] at *
      omega

/-- C40 for the first save into a directory: every row is the upper edge and the total count of the TIFF file.
Missing: later saves (`c40_false_second_save`), and the six significant digits of the printed edge. -/
theorem c40_first_save_partial {n d : Nat} (hd0 : 0 < d) (hd : d < 2 ^ 16) (out base : Path) (edges : List F64) (im : Stack)
    (hs : Shaped n d im) (he : edges.length = n + 1) (d0 d1 : Dir) (h0 : ∀ i t, d0 (tiffName out base i) ≠ some (.tiff t))
    (hr : SaveRun out base edges im d0 d1) :
    ∃ rows, d1 (spectraName out base) = some (.spectra rows) ∧ rows.length = n ∧
      ∀ i, i < n → ∃ t hi c, d1 (tiffName out base i) = some (.tiff t) ∧ edges[i + 1]? = some hi ∧
        rows[i]? = some (hi, c) ∧ c.toNat = (t.rows.map fun r => (r.map BitVec.toNat).sum).sum := by
  obtain ⟨rows, h1, h2, h3⟩ := c40_last_save hd out base edges im hs he d0 d1 hr
  refine ⟨rows, h1, h2, ?_⟩
  intro i hi
  have hlt : i < im.length := by rw [hs.len]; exact hi
  have hget := List.getElem?_eq_getElem hlt
  obtain ⟨up, c, g1, g2, g3⟩ := h3 i _ hget
  have hsv := (saveRun_result hs out base edges _ _ hr).1 i _ hget
  exact ⟨_, up, c, saved_fresh_eq (shaped_square hs i _ hget) hd0 _ _ (fun t ht => absurd ht (h0 i t)) hsv, g1, g2, g3⟩

/-- C40 is false after a second save: the images accumulate, the spectrum does not. -/
theorem c40_false_second_save : ∃ (out base : Path) (edges : List F64) (ims : List Stack) (d1 : Dir),
    SaveRuns out base edges ims (fun _ => none) d1 ∧ ∃ t hi c, d1 (tiffName out base 0) = some (.tiff t) ∧
      d1 (spectraName out base) = some (.spectra [(hi, c)]) ∧
      (t.rows[0]?.bind fun r => r[0]?) = some 2#32 ∧ t.width = 1 ∧ t.height = 1 ∧ c = 1#64 := by
  have hs : ∀ im ∈ [[[[1#32]]], [[[1#32]]]], Shaped 1 1 im := by
    intro im him
    simp only [List.mem_cons, List.not_mem_nil, or_false] at him
    rcases him with rfl | rfl <;> exact ⟨rfl, by simp, by simp⟩
  obtain ⟨d1, h1⟩ := saveRuns_exists (n := 1) (d := 1) (by omega) "out".toList "run".toList [.fin 0, .fin 1] _ hs rfl
    (fun _ => none)
  obtain ⟨t, g1, g2, g3, g4⟩ := c39_accumulates (by omega) _ _ _ _ (by simp) hs _ _ (by simp) h1 0 (by omega)
  refine ⟨_, _, _, _, d1, h1, t, .fin 1, 1#64, g1, ?_, ?_, g2, g3, rfl⟩
  · cases h1 with
    | cons a b =>
      cases b with
      | cons c e =>
        cases e
        obtain ⟨s, rows, -, -, h3, rfl⟩ := c
        rw [Function.update_self]
        have : spectraRows [.fin 0, .fin 1] (spectralCounts [[[1#32]]]) = .ok [(.fin 1, 1#64)] := by
          unfold spectraRows
          rw [if_neg (by simp [spectralCounts])]
          rfl
        rw [this] at h3
        injection h3 with h3
        rw [h3]
  · have := g4 0 0 (by omega) (by omega)
    simp only [stackSum, pixel, List.map_cons, List.map_nil, List.getElem?_cons_zero, Option.bind_some, Option.map_some,
      Option.getD_some, List.sum_cons, List.sum_nil] at this
    obtain ⟨v, e1, e2⟩ := Option.map_eq_some_iff.mp this
    rw [e1]
    congr 1
    apply BitVec.eq_of_toNat_eq
    rw [e2]
    rfl

end Verif.Props
