import Verif.Spec.Invariance
import Verif.Props.LegacyAbs

/-!
# C91: clusters do not depend on where and when the hits are
-/

namespace Verif.Props

open Verif Verif.Spec

/-- The interval of a cluster after a motion. -/
def spanned (flip : Bool) (d a b : Int) : Int × Int := if flip then (d - b, d - a) else (d + a, d + b)

/-- Bounds on the members of a cluster that is in use. -/
structure SlotRange (s : Slot) : Prop where
  time : s.time < 25 * 2 ^ 48
  xmin : |s.xmin| ≤ 2 ^ 20
  xmax : |s.xmax| ≤ 2 ^ 20
  ymin : |s.ymin| ≤ 2 ^ 20
  ymax : |s.ymax| ≤ 2 ^ 20

/-- Corresponding clusters of the two runs. -/
structure SlotMoved (m : Motion) (s s' : Slot) : Prop where
  label : s'.label = s.label
  size : s'.size = s.size
  good : s.size ≠ 0 → SlotRange s ∧ SlotRange s'
  time : s.size ≠ 0 → (s'.time : Int) = s.time + 25 * m.dt
  x : s.size ≠ 0 → (s'.xmin, s'.xmax) = spanned m.flipX m.dx (if m.swap then s.ymin else s.xmin) (if m.swap then s.ymax else s.xmax)
  y : s.size ≠ 0 → (s'.ymin, s'.ymax) = spanned m.flipY m.dy (if m.swap then s.xmin else s.ymin) (if m.swap then s.xmax else s.ymax)

theorem round_lo {r : ℚ} (hr : |r| ≤ 2 ^ 20) (hc : Clear r) {v x : ℤ} (hv : |v| ≤ 2 ^ 20) (hx : |x| ≤ 2 ^ 20) :
    rndQ ((v : ℚ) - r) ≤ x ↔ (v : ℚ) - r ≤ x := by
  constructor
  · intro h
    have hvq : |(v : ℚ)| ≤ 2 ^ 20 := by rw [← Int.cast_abs]; exact_mod_cast hv
    have he := rndQ_abs_err (q := (v : ℚ) - r) (by
      refine (abs_sub _ _).trans ?_
      have := add_le_add hvq hr
      norm_num at this ⊢; exact this)
    have he1 := (abs_le.mp he).1
    rcases hc (v - x) with h1 | h1
    · rw [h1]; push_cast; linarith
    · push_cast at h1
      rcases le_total 0 (r - ((v : ℚ) - x)) with h2 | h2
      · linarith
      · rw [abs_of_nonpos h2] at h1
        linarith
  · intro h
    have h2 := rndQ_mono h
    rwa [rndQ_int (hx.trans (by norm_num))] at h2

theorem round_hi {r : ℚ} (hr : |r| ≤ 2 ^ 20) (hc : Clear r) {v x : ℤ} (hv : |v| ≤ 2 ^ 20) (hx : |x| ≤ 2 ^ 20) :
    (x : ℚ) ≤ rndQ ((v : ℚ) + r) ↔ (x : ℚ) ≤ v + r := by
  constructor
  · intro h
    have hvq : |(v : ℚ)| ≤ 2 ^ 20 := by rw [← Int.cast_abs]; exact_mod_cast hv
    have he := rndQ_abs_err (q := (v : ℚ) + r) (by
      refine (abs_add_le _ _).trans ?_
      have := add_le_add hvq hr
      norm_num at this ⊢; exact this)
    have he1 := (abs_le.mp he).2
    rcases hc (x - v) with h1 | h1
    · rw [h1]; push_cast; linarith
    · push_cast at h1
      rcases le_total 0 (r - ((x : ℚ) - v)) with h2 | h2
      · linarith
      · rw [abs_of_nonpos h2] at h1
        linarith
  · intro h
    have h2 := rndQ_mono h
    rwa [rndQ_int (hx.trans (by norm_num))] at h2

/-- Whether a cluster takes a hit, in exact arithmetic. -/
theorem accepts_exact {p : AbsParams} {r : ℚ} (hp : p.feature = .fin r) (hr : |r| ≤ 2 ^ 20) (hc : Clear r)
    (hrange : p.range < 2 ^ 64) {h : Hit} (hh : InRange h) {s : Slot} (hs : SlotRange s) :
    s.accepts p h = true ↔ |arrivalNs h - (s.time : ℤ)| ≤ p.range ∧
      (s.xmin : ℚ) - r ≤ h.x ∧ (h.x : ℚ) ≤ s.xmax + r ∧ (s.ymin : ℚ) - r ≤ h.y ∧ (h.y : ℚ) ≤ s.ymax + r := by
  obtain ⟨hx, hy, ht⟩ := hh
  have hr' : |r| ≤ 2 ^ 900 := hr.trans (pow_le_pow_right₀ (by norm_num) (by norm_num))
  have up : ∀ {n : ℤ}, |n| ≤ 2 ^ 20 → |n| ≤ 2 ^ 53 := fun hn => hn.trans (by norm_num)
  unfold Slot.accepts
  rw [Bool.and_eq_true, hp, box_iff s h r hr' (up hx) (up hy) (up hs.xmin) (up hs.xmax) (up hs.ymin) (up hs.ymax),
    round_lo hr hc hs.xmin hx, round_hi hr hc hs.xmax hx, round_lo hr hc hs.ymin hy, round_hi hr hc hs.ymax hy]
  refine and_congr_left fun _ => ?_
  have h0 := arrivalNs_nonneg h
  have h1 := arrivalNs_lt h ht
  have h2 := hs.time
  rw [spidertimeNs_exact h ht, F64.ofInt_exact (by rw [abs_of_nonneg (by omega)]; omega)]
  have hsub : F64.sub (.fin ((arrivalNs h : ℤ) : ℚ)) (.fin ((s.time : ℤ) : ℚ)) =
      .fin (((arrivalNs h - s.time : ℤ)) : ℚ) := by
    show F64.ofRat _ = _
    have e : ((arrivalNs h : ℤ) : ℚ) + -((s.time : ℤ) : ℚ) = ((arrivalNs h - s.time : ℤ) : ℚ) := by
      push_cast; ring
    rw [e, F64.ofRat_int]
    rw [abs_le]; omega
  have habs : F64.abs (.fin (((arrivalNs h - s.time : ℤ)) : ℚ)) = .fin ((|arrivalNs h - s.time| : ℤ) : ℚ) := by
    show F64.fin _ = F64.fin _
    rw [Int.cast_abs]
  rw [hsub, habs, le_ofInt_iff _ _ (by rw [abs_abs, abs_le]; omega) hrange]

theorem accepts_moved {p : AbsParams} {r : ℚ} (hp : p.feature = .fin r) (hr : |r| ≤ 2 ^ 20) (hc : Clear r)
    (hrange : p.range < 2 ^ 64) {m : Motion} {h h' : Hit} (hm : Moved m h h') (hh : InRange h) (hh' : InRange h')
    {s s' : Slot} (hs : SlotMoved m s s') (hne : s.size ≠ 0) : s'.accepts p h' = s.accepts p h := by
  rw [Bool.eq_iff_iff, accepts_exact hp hr hc hrange hh' (hs.good hne).2, accepts_exact hp hr hc hrange hh (hs.good hne).1]
  have e1 : arrivalNs h' - (s'.time : ℤ) = arrivalNs h - s.time := by
    have h1 := hs.time hne
    have h2 := hm.time
    unfold arrivalNs
    omega
  rw [e1]
  refine and_congr_right fun _ => ?_
  have hx := hs.x hne
  have hy := hs.y hne
  have mx := hm.x
  have my := hm.y
  clear hs hm
  obtain ⟨fx, fy, sw, dx, dy, dt⟩ := m
  cases fx <;> cases fy <;> cases sw <;>
    simp only [spanned, placed, Prod.mk.injEq, if_true, if_false, Bool.false_eq_true] at hx hy mx my <;>
    rw [hx.1, hx.2, hy.1, hy.2, mx, my] <;> push_cast <;>
    constructor <;> (rintro ⟨a1, a2, a3, a4⟩; refine ⟨?_, ?_, ?_, ?_⟩ <;> linarith)

theorem openSlot_moved {m : Motion} {h h' : Hit} (hm : Moved m h h') (hh : InRange h) (hh' : InRange h') (l : Int) :
    ∃ s s', openSlot l h = .ok s ∧ openSlot l h' = .ok s' ∧ SlotMoved m s s' := by
  unfold openSlot
  rw [toU64_time h hh.2.2, toU64_time h' hh'.2.2]
  refine ⟨_, _, rfl, rfl, ?_⟩
  have h1 := hm.time
  have b1 := hh.2.2
  have b2 := hh'.2.2
  refine ⟨rfl, rfl, fun _ => ⟨⟨?_, hh.1, hh.1, hh.2.1, hh.2.1⟩, ⟨?_, hh'.1, hh'.1, hh'.2.1, hh'.2.1⟩⟩, fun _ => ?_, fun _ => ?_,
    fun _ => ?_⟩
  · simp only [arrivalNs]; omega
  · simp only [arrivalNs]; omega
  · simp only [arrivalNs]; omega
  · have mx := hm.x
    obtain ⟨fx, fy, sw, dx, dy, dt⟩ := m
    cases fx <;> cases sw <;> simp [spanned, placed] at mx ⊢ <;> omega
  · have my := hm.y
    obtain ⟨fx, fy, sw, dx, dy, dt⟩ := m
    cases fy <;> cases sw <;> simp [spanned, placed] at my ⊢ <;> omega

theorem grow_range {s : Slot} (hs : SlotRange s) {h : Hit} (hh : InRange h) : SlotRange (s.grow h) := by
  obtain ⟨hx, hy, -⟩ := hh
  obtain ⟨t, a, b, c, d⟩ := hs
  rw [abs_le] at *
  refine ⟨t, ?_, ?_, ?_, ?_⟩ <;> simp only [Slot.grow] <;> rw [abs_le] <;> omega

theorem grow_moved {m : Motion} {h h' : Hit} (hm : Moved m h h') (hh : InRange h) (hh' : InRange h') {s s' : Slot}
    (hs : SlotMoved m s s') (hne : s.size ≠ 0) : SlotMoved m (s.grow h) (s'.grow h') := by
  refine ⟨hs.label, by simp only [Slot.grow]; rw [hs.size],
    fun _ => ⟨grow_range (hs.good hne).1 hh, grow_range (hs.good hne).2 hh'⟩, fun _ => hs.time hne, fun _ => ?_, fun _ => ?_⟩
  · have hx := hs.x hne
    have mx := hm.x
    obtain ⟨fx, fy, sw, dx, dy, dt⟩ := m
    cases fx <;> cases sw <;> simp [spanned, placed, Slot.grow] at mx hx ⊢ <;> omega
  · have hy := hs.y hne
    have my := hm.y
    obtain ⟨fx, fy, sw, dx, dy, dt⟩ := m
    cases fy <;> cases sw <;> simp [spanned, placed, Slot.grow] at my hy ⊢ <;> omega

theorem placeIn_moved {p : AbsParams} {r : ℚ} (hp : p.feature = .fin r) (hr : |r| ≤ 2 ^ 20) (hc : Clear r)
    (hrange : p.range < 2 ^ 64) {m : Motion} {h h' : Hit} (hm : Moved m h h') (hh : InRange h) (hh' : InRange h')
    {ss ss' : List Slot} (hs : List.Forall₂ (SlotMoved m) ss ss') :
    (placeIn p h ss = .ok none ∧ placeIn p h' ss' = .ok none ∧ ∀ s ∈ ss, s.size ≠ 0) ∨
    ∃ ts ts' l, placeIn p h ss = .ok (some (ts, l)) ∧ placeIn p h' ss' = .ok (some (ts', l)) ∧
      List.Forall₂ (SlotMoved m) ts ts' := by
  induction hs with
  | nil => left; exact ⟨rfl, rfl, by simp⟩
  | @cons s s' ss ss' h1 h2 ih =>
    by_cases hne : s.size = 0
    · right
      obtain ⟨t, t', o1, o2, o3⟩ := openSlot_moved hm hh hh' s.label
      have hne' : s'.size = 0 := by rw [h1.size, hne]
      refine ⟨t :: ss, t' :: ss', s.label, ?_, ?_, .cons o3 h2⟩
      · rw [placeIn, if_pos hne, o1]
      · rw [placeIn, if_pos hne', h1.label, o2]
    · have hne' : s'.size ≠ 0 := by rw [h1.size]; exact hne
      have hacc := accepts_moved hp hr hc hrange hm hh hh' h1 hne
      by_cases ha : s.accepts p h = true
      · right
        refine ⟨s.grow h :: ss, s'.grow h' :: ss', s.label, ?_, ?_, .cons (grow_moved hm hh hh' h1 hne) h2⟩
        · rw [placeIn, if_neg hne, if_pos ha]
        · rw [placeIn, if_neg hne', hacc, if_pos ha, h1.label]
      · rcases ih with ⟨i1, i2, i3⟩ | ⟨ts, ts', l, i1, i2, i3⟩
        · left
          refine ⟨?_, ?_, ?_⟩
          · rw [placeIn, if_neg hne, if_neg ha, i1]
          · rw [placeIn, if_neg hne', hacc, if_neg ha, i2]
          · intro t ht
            rcases List.mem_cons.mp ht with rfl | ht
            · exact hne
            · exact i3 t ht
        · right
          refine ⟨s :: ts, s' :: ts', l, ?_, ?_, .cons h1 i3⟩
          · rw [placeIn, if_neg hne, if_neg ha, i1]
          · rw [placeIn, if_neg hne', hacc, if_neg ha, i2]

theorem minLoop_moved {m : Motion} {ss ss' : List Slot} (hs : List.Forall₂ (SlotMoved m) ss ss')
    (hne : ∀ s ∈ ss, s.size ≠ 0) (j t t' b : Nat) (ht : (t' : Int) = t + 25 * m.dt) :
    minLoop ss' j t' b = minLoop ss j t b := by
  induction hs generalizing j t t' b with
  | nil => rfl
  | @cons s s' ss ss' h1 h2 ih =>
    have h3 := h1.time (hne s (by simp))
    have h4 := h1.size
    rw [minLoop, minLoop]
    by_cases hc : 0 < s.size ∧ s.time < t
    · rw [if_pos hc, if_pos (by omega)]
      exact ih (fun s hs => hne s (by simp [hs])) _ _ _ _ h3
    · rw [if_neg hc, if_neg (by omega)]
      exact ih (fun s hs => hne s (by simp [hs])) _ _ _ _ ht

theorem minIndex_moved {m : Motion} {ss ss' : List Slot} (hs : List.Forall₂ (SlotMoved m) ss ss')
    (hne : ∀ s ∈ ss, s.size ≠ 0) : minIndex ss' = minIndex ss := by
  cases hs with
  | nil => rfl
  | cons h1 h2 =>
    exact minLoop_moved h2 (fun s hs => hne s (by simp [hs])) _ _ _ _ (h1.time (hne _ (by simp)))

theorem forall₂_set {α β : Type} {R : α → β → Prop} {as : List α} {bs : List β} (h : List.Forall₂ R as bs) (i : Nat) {a : α}
    {b : β} (hab : R a b) : List.Forall₂ R (as.set i a) (bs.set i b) := by
  induction h generalizing i with
  | nil => exact .nil
  | cons h1 h2 ih =>
    cases i with
    | zero => exact .cons hab h2
    | succ i => exact .cons h1 (ih i)

theorem fitLoop_moved {p : AbsParams} {r : ℚ} (hp : p.feature = .fin r) (hr : |r| ≤ 2 ^ 20) (hc : Clear r)
    (hrange : p.range < 2 ^ 64) {m : Motion} {hs hs' : List Hit} (hm : List.Forall₂ (Moved m) hs hs')
    (hb : ∀ h ∈ hs, InRange h) (hb' : ∀ h ∈ hs', InRange h) (i : Nat) (st st' : FitState)
    (hslots : List.Forall₂ (SlotMoved m) st.slots st'.slots) (hmax : st'.maxLabel = st.maxLabel)
    (hlab : st'.labels = st.labels) :
    ∃ e e', fitLoop p i hs st = .ok e ∧ fitLoop p i hs' st' = .ok e' ∧ e'.maxLabel = e.maxLabel ∧ e'.labels = e.labels := by
  induction hm generalizing i st st' with
  | nil => exact ⟨st, st', rfl, rfl, hmax, hlab⟩
  | @cons h h' hs hs' h1 h2 ih =>
    have k1 := hb h (by simp)
    have k2 := hb' h' (by simp)
    have step : ∃ e e', fitStep p i h st = .ok e ∧ fitStep p i h' st' = .ok e' ∧
        List.Forall₂ (SlotMoved m) e.slots e'.slots ∧ e'.maxLabel = e.maxLabel ∧ e'.labels = e.labels := by
      unfold fitStep
      rcases placeIn_moved hp hr hc hrange h1 k1 k2 hslots with ⟨i1, i2, i3⟩ | ⟨ts, ts', l, i1, i2, i3⟩
      · rw [i1, i2]
        obtain ⟨s, s', o1, o2, o3⟩ := openSlot_moved h1 k1 k2 st.maxLabel
        simp only [hmax, o1, o2]
        refine ⟨_, _, rfl, rfl, ?_, rfl, ?_⟩
        · simp only [minIndex_moved hslots i3]
          exact forall₂_set hslots _ o3
        · simp only [hlab]
      · rw [i1, i2]
        exact ⟨_, _, rfl, rfl, i3, hmax, by simp only [hlab]⟩
    obtain ⟨e, e', s1, s2, s3, s4, s5⟩ := step
    obtain ⟨f, f', t1, t2, t3, t4⟩ := ih (fun h hh => hb h (by simp [hh])) (fun h hh => hb' h (by simp [hh])) (i + 1) e e' s3 s4 s5
    refine ⟨f, f', ?_, ?_, t3, t4⟩
    · simp only [fitLoop, bind, Res.bind, s1, t1]
    · simp only [fitLoop, bind, Res.bind, s2, t2]

theorem initSlots_moved (m : Motion) (n : Nat) : List.Forall₂ (SlotMoved m) (initSlots n) (initSlots n) := by
  rw [List.forall₂_same]
  intro s hs
  unfold initSlots at hs
  obtain ⟨i, -, rfl⟩ := List.mem_map.mp hs
  exact ⟨rfl, rfl, fun h => absurd rfl h, fun h => absurd rfl h, fun h => absurd rfl h, fun h => absurd rfl h⟩

theorem fitWith_moved {n : Nat} (hn : 0 < n) (o o2 : AbsObj) (hparams : o2.params = o.params) (data data' : List Hit) (r : ℚ)
    (hp : o.params.feature = .fin r) (hr : |r| ≤ 2 ^ 20) (hc : Clear r) (hrange : o.params.range < 2 ^ 64) (m : Motion)
    (hm : List.Forall₂ (Moved m) data data') (hb : ∀ h ∈ data, InRange h) (hb' : ∀ h ∈ data', InRange h) :
    ∃ a a', o.fitWith n data = .ok a ∧ o2.fitWith n data' = .ok a' ∧ a'.labels = a.labels ∧ a'.indices = a.indices := by
  have hlen := hm.length_eq
  have hres : AbsObj.resized o2.labels data'.length = AbsObj.resized o.labels data.length := by
    unfold AbsObj.resized; simp [hlen]
  obtain ⟨e, e', t1, t2, t3, t4⟩ := fitLoop_moved hp hr hc hrange hm hb hb' 0
    ⟨initSlots n, n, AbsObj.resized o.labels data.length⟩ ⟨initSlots n, n, AbsObj.resized o.labels data.length⟩
    (initSlots_moved m n) rfl rfl
  rcases fitWith_ok hn o data with ⟨a, ha⟩ | ⟨-, h, hh, hu⟩
  · refine ⟨a, ?_⟩
    unfold AbsObj.fitWith at ha ⊢
    rw [hres, hparams]
    simp only [bind, Res.bind, t1, t2, List.take_zero, List.nil_append, t3, t4] at ha ⊢
    cases hi : indexLoop 0 e.labels (List.replicate (e.maxLabel + 1).toNat []) with
    | ok idx =>
      rw [hi] at ha
      injection ha with ha
      subst ha
      exact ⟨_, rfl, rfl, rfl, rfl⟩
    | throws u => rw [hi] at ha; simp at ha
    | ub u => rw [hi] at ha; simp at ha
  · rw [toU64_time h (hb h hh).2.2] at hu
    simp at hu

/-- C91: hits moved in the plane and in time get the same labels, whatever else differs between them: mirror images, exchanged
axes, any shift of position and time, any other times over threshold and times of flight.  Both calls return. -/
theorem c91_labels_partial (o o2 : AbsObj) (hparams : o2.params = o.params) (data data' : List Hit) (r : ℚ)
    (hp : o.params.feature = .fin r) (hr : |r| ≤ 2 ^ 20) (hc : Clear r) (hrange : o.params.range < 2 ^ 64) (m : Motion)
    (hm : List.Forall₂ (Moved m) data data') (hb : ∀ h ∈ data, InRange h) (hb' : ∀ h ∈ data', InRange h) :
    ∃ a a', o.fit data = .ok a ∧ o2.fit data' = .ok a' ∧ a'.labels = a.labels :=
  let ⟨a, a', h1, h2, h3, _⟩ := fitWith_moved (by decide) o o2 hparams data data' r hp hr hc hrange m hm hb hb'
  ⟨a, a', h1, h2, h3⟩

/-- C91 for the legacy library. -/
theorem c91_legacy_partial (o o2 : AbsObj) (hparams : o2.params = o.params) (data data' : List Hit) (r : ℚ)
    (hp : o.params.feature = .fin r) (hr : |r| ≤ 2 ^ 20) (hc : Clear r) (hrange : o.params.range < 2 ^ 64) (m : Motion)
    (hm : List.Forall₂ (Moved m) data data') (hb : ∀ h ∈ data, InRange h) (hb' : ∀ h ∈ data', InRange h) :
    ∃ a a', o.legacyFit data = .ok a ∧ o2.legacyFit data' = .ok a' ∧ a'.labels = a.labels :=
  let ⟨a, a', h1, h2, h3, _⟩ := fitWith_moved (by decide) o o2 hparams data data' r hp hr hc hrange m hm hb hb'
  ⟨a, a', h1, h2, h3⟩

/-! ### Events -/

/-- What event building looks at. -/
def bare (h : Hit) : Hit := { h with spidertime := 0, toa := 0, ftoa := 0 }

theorem centroidLoop_bare (w : Bool) (sr : F64) (a : CentroidAcc) (hs : List Hit) :
    centroidLoop w sr a (hs.map bare) = centroidLoop w sr a hs := by
  induction hs generalizing a with
  | nil => rfl
  | cons h hs ih =>
    rw [List.map_cons, centroidLoop, centroidLoop, show centroidStep w sr a (bare h) = centroidStep w sr a h from rfl]
    cases centroidStep w sr a h with
    | ok b => exact ih b
    | throws e => rfl
    | ub u => rfl

theorem gaussRows_bare (sr : F64) (hs : List Hit) : gaussRows sr (hs.map bare) = gaussRows sr hs := by
  induction hs with
  | nil => rfl
  | cons h hs ih => rw [List.map_cons, gaussRows, gaussRows, ih]; rfl

theorem algorithm_bare {solve : List GaussRow → F64 × F64} {m : String} {alg : List Hit → Res Neutron}
    (h : AbsObj.algorithm solve m = some alg) (hs : List Hit) : alg (hs.map bare) = alg hs := by
  unfold AbsObj.algorithm at h
  split_ifs at h
  · injection h with h
    subst h
    unfold centroidFit
    rw [centroidLoop_bare, List.length_map]
  · injection h with h
    subst h
    unfold fastGaussianFit
    rw [gaussRows_bare, List.length_map]

theorem gather_bare (data : List Hit) (is : List Nat) :
    AbsObj.gather (data.map bare) is = (AbsObj.gather data is).bind fun hs => .ok (hs.map bare) := by
  induction is with
  | nil => rfl
  | cons i is ih =>
    rw [AbsObj.gather, AbsObj.gather, List.getElem?_map]
    cases data[i]? with
    | none => rfl
    | some h =>
      simp only [Option.map_some, bind, ih]
      cases AbsObj.gather data is <;> rfl

theorem eventLoop_bare (o : AbsObj) {alg : List Hit → Res Neutron} (halg : ∀ hs : List Hit, alg (hs.map bare) = alg hs)
    (data : List Hit) (fuel l : Nat) : o.eventLoop alg (data.map bare) fuel l = o.eventLoop alg data fuel l := by
  induction fuel generalizing l with
  | zero => rfl
  | succ fuel ih =>
    rw [AbsObj.eventLoop, AbsObj.eventLoop]
    cases o.indices[l]? with
    | none => rfl
    | some is =>
      simp only [gather_bare, bind]
      cases AbsObj.gather data is with
      | ok hs => simp only [Res.bind, List.length_map, halg, ih]
      | throws e => rfl
      | ub u => rfl

theorem getEvents_bare (solve : List GaussRow → F64 × F64) (o : AbsObj) (data : List Hit) :
    o.getEvents solve (data.map bare) = o.getEvents solve data := by
  unfold AbsObj.getEvents
  rw [List.length_map]
  cases h : AbsObj.algorithm solve o.method with
  | none => rfl
  | some alg => simp only [eventLoop_bare o (algorithm_bare h)]

/-- C91, events: if all hits of a batch come `dt` ticks later (or earlier) and have the same positions, times over threshold and
times of flight, the events are the same, for both ways of fitting. -/
theorem c91_events_partial (solve : List GaussRow → F64 × F64) (o : AbsObj) (data data' : List Hit) (r : ℚ)
    (hp : o.params.feature = .fin r) (hr : |r| ≤ 2 ^ 20) (hc : Clear r) (hrange : o.params.range < 2 ^ 64) (dt : Int)
    (hm : List.Forall₂ (fun h h' : Hit => h'.x = h.x ∧ h'.y = h.y ∧ h'.tot = h.tot ∧ h'.tof = h.tof ∧
      (h'.spidertime.toNat : Int) = h.spidertime.toNat + dt) data data')
    (hb : ∀ h ∈ data, InRange h) (hb' : ∀ h ∈ data', InRange h) :
    ∃ a a', o.fit data = .ok a ∧ o.fit data' = .ok a' ∧ a'.getEvents solve data' = a.getEvents solve data := by
  have hmoved : List.Forall₂ (Moved ⟨false, false, false, 0, 0, dt⟩) data data' := by
    refine hm.imp fun h h' hh => ⟨?_, ?_, hh.2.2.2.2⟩
    · simp [placed, hh.1]
    · simp [placed, hh.2.1]
  obtain ⟨a, a', h1, h2, h3, h4⟩ := fitWith_moved (n := numClusters) (by decide) o o rfl data data' r hp hr hc hrange _ hmoved hb hb'
  refine ⟨a, a', h1, h2, ?_⟩
  have hbare : data'.map bare = data.map bare := by
    clear hmoved h1 h2 hb hb'
    induction hm with
    | nil => rfl
    | @cons h h' hs hs' k1 k2 ih =>
      rw [List.map_cons, List.map_cons, ih]
      congr 1
      obtain ⟨x, y, tot, toa, ftoa, tof, sp⟩ := h
      obtain ⟨x', y', tot', toa', ftoa', tof', sp'⟩ := h'
      obtain ⟨rfl, rfl, rfl, rfl, -⟩ := k1
      rfl
  obtain ⟨-, -, -, -, p1, p2, -⟩ := fitWith_inv (by decide) h1
  obtain ⟨-, -, -, -, q1, q2, -⟩ := fitWith_inv (by decide) h2
  have ha : a' = a := by
    obtain ⟨_, _, _, _⟩ := a
    obtain ⟨_, _, _, _⟩ := a'
    simp only at p1 p2 q1 q2 h3 h4
    subst p1 p2 q1 q2 h3 h4
    rfl
  rw [ha, ← getEvents_bare solve a data', hbare, getEvents_bare]

/-- Whole numbers of pixels are clear. -/
theorem clear_int (k : ℤ) : Clear (k : ℚ) := by
  intro j
  by_cases h : k = j
  · left; rw [h]
  · right
    have h1 : (1 : ℤ) ≤ |k - j| := Int.one_le_abs (sub_ne_zero.mpr h)
    have h2 : (1 : ℚ) ≤ |(k : ℚ) - j| := by
      have : ((1 : ℤ) : ℚ) ≤ ((|k - j| : ℤ) : ℚ) := by exact_mod_cast h1
      rw [Int.cast_abs] at this
      push_cast at this
      exact this
    exact lt_of_lt_of_le (by norm_num) h2

/-- Five hits of two neutrons, their mirror image with exchanged axes 100 ticks earlier. -/
def exHere : List Hit :=
  [⟨10, 20, 5, 0, 0, some 7#32, 1000⟩, ⟨40, 20, 5, 0, 0, some 7#32, 1001⟩, ⟨11, 21, 5, 0, 0, some 7#32, 1002⟩,
   ⟨41, 22, 5, 0, 0, some 7#32, 1002⟩, ⟨14, 19, 5, 0, 0, some 7#32, 1003⟩]
def exThere : List Hit :=
  [⟨80, 60, 9, 0, 0, none, 900⟩, ⟨80, 90, 5, 0, 0, some 7#32, 901⟩, ⟨79, 61, 5, 0, 0, some 0#32, 902⟩,
   ⟨78, 91, 5, 0, 0, some 7#32, 902⟩, ⟨81, 64, 5, 0, 0, some 7#32, 903⟩]

example : List.Forall₂ (Moved ⟨true, false, true, 100, 50, -100⟩) exHere exThere ∧ (∀ h ∈ exHere, InRange h) ∧
    (∀ h ∈ exThere, InRange h) ∧ ((AbsObj.new ⟨.fin 5, 1, 75⟩).fit exHere).bind (fun a => .ok a.labels) = .ok [0, 1, 0, 1, 0] := by
  refine ⟨?_, ?_, ?_, by decide +kernel⟩
  · unfold exHere exThere
    repeat' constructor
  · unfold InRange; decide
  · unfold InRange; decide

/-- C91 is false for a radius that is almost, but not exactly, a whole number: with a radius of 5 - 2^-50 two hits at 5 and 0 are
two clusters, and the same hits shifted by 100 pixels are one. -/
theorem c91_false_radius :
    ((AbsObj.new ⟨.fin (5 - 1 / 2 ^ 50), 1, 75⟩).fit [⟨5, 10, 5, 0, 0, some 7#32, 1000⟩, ⟨0, 10, 5, 0, 0, some 7#32, 1000⟩]).bind
      (fun a => .ok a.labels) = .ok [0, 1] ∧
    ((AbsObj.new ⟨.fin (5 - 1 / 2 ^ 50), 1, 75⟩).fit [⟨105, 10, 5, 0, 0, some 7#32, 1000⟩, ⟨100, 10, 5, 0, 0, some 7#32, 1000⟩]).bind
      (fun a => .ok a.labels) = .ok [0, 0] := by
  decide +kernel

/-- C91 is false for late times, which a double does not resolve: two hits one tick apart are two clusters with a range of
20 ns, and one cluster 2^59 ticks later. -/
theorem c91_false_late :
    ((AbsObj.new ⟨.fin 5, 1, 20⟩).fit [⟨5, 10, 5, 0, 0, some 7#32, 1000⟩, ⟨5, 10, 5, 0, 0, some 7#32, 1001⟩]).bind
      (fun a => .ok a.labels) = .ok [0, 1] ∧
    ((AbsObj.new ⟨.fin 5, 1, 20⟩).fit [⟨5, 10, 5, 0, 0, some 7#32, 2 ^ 59 + 1000⟩, ⟨5, 10, 5, 0, 0, some 7#32, 2 ^ 59 + 1001⟩]).bind
      (fun a => .ok a.labels) = .ok [0, 0] := by
  decide +kernel

end Verif.Props
