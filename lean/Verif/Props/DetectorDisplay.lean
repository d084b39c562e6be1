import Verif.Lemmas.AbsFit
import Verif.Props.Detector
import Verif.Props.DetectorLegacy
import Verif.Props.Display
import Verif.Props.DisplayParse
import Verif.Props.DisplayWorker
import Verif.Spec.DetectorDisplay

/-! # What the display program shows of a detector (C103) -/

namespace Verif.Props

open Verif Verif.Spec

/-! ## Hits -/

/-- The hit that shows the packet of a pixel, with the trigger as the program keeps it. -/
theorem shows_pixel {chip : Int} {T t col row tot ftoa : Nat} {h : DisplayHit} (hok : PixelOk col row tot ftoa)
    (hs : Shows chip (T % 2 ^ 30) (pixelWord t col row tot ftoa) h) :
    h = { pictureHit chip T t col row tot ftoa with tof := BitVec.ofNat 32 (t % 2 ^ 30 + 2 ^ 32 - T % 2 ^ 30) } := by
  obtain ⟨h1, h2, h3, h4, h5, h6⟩ := hs
  obtain ⟨-, -, -, f4, f5, f6, f7, f8⟩ := pixelWord_fields (t := t) hok
  rw [decTot_eq] at f5
  rw [decToa_eq] at f6
  rw [decFtoa_eq] at f7
  have hw := pixelWord_toNat (t := t) hok
  obtain ⟨b1, b2, b3, b4⟩ := hok
  have e1 : chipX (pixelWord t col row tot ftoa) = col ∧ chipY (pixelWord t col row tot ftoa) = row := by
    have ha := address_lt b1 b2
    unfold chipX chipY field
    rw [hw]
    unfold pixelAddress at ha ⊢
    have : t / 2 ^ 14 % 2 ^ 16 < 2 ^ 16 := Nat.mod_lt _ (by norm_num)
    have : t % 2 ^ 14 < 2 ^ 14 := Nat.mod_lt _ (by norm_num)
    generalize t / 2 ^ 14 % 2 ^ 16 = m at *
    generalize t % 2 ^ 14 = m' at *
    constructor <;> omega
  rw [f4] at h4 h5
  simp only [e1.1, e1.2] at h6
  unfold field at h1 h2 h3
  obtain ⟨ft, tt, ta, x, y, sp, tf⟩ := h
  simp only at h1 h2 h3 h4 h5 h6
  have htf : tf = BitVec.ofNat 32 (t % 2 ^ 30 + 2 ^ 32 - T % 2 ^ 30) := by
    apply BitVec.eq_of_toNat_eq
    rw [BitVec.toNat_ofNat]
    have := tf.isLt
    omega
  have hxy : (x, y) = onPicture chip col row := h6
  unfold pictureHit
  rw [← hxy, h1, h2, h3, h4, htf]
  simp only [DisplayHit.mk.injEq, and_true]
  exact ⟨by exact_mod_cast f7, by exact_mod_cast f5, by exact_mod_cast f6⟩

/-- With trigger and pixel in the same turn of the 30-bit clock, the time since the trigger is the true one. -/
theorem same_turn {T t : Nat} (h1 : T ≤ t) (h2 : t / 2 ^ 30 = T / 2 ^ 30) :
    BitVec.ofNat 32 (t % 2 ^ 30 + 2 ^ 32 - T % 2 ^ 30) = BitVec.ofNat 32 (t - T) := by
  apply BitVec.eq_of_toNat_eq
  rw [BitVec.toNat_ofNat, BitVec.toNat_ofNat]
  omega

theorem triggerWord_low (t : Nat) : field (triggerWord t) 12 30 = t % 2 ^ 30 := by
  have := (triggerWord_fields t).2.2
  unfold field at this ⊢
  omega

/-- Hits that show the packets of signals are those of the firing pixels. -/
theorem signals_shown (chip : Int) (sigs : List Signal) (p : Past) (hs : AllTimelyD p sigs) (ps : List (Int × U64))
    (hits : List DisplayHit)
    (hd : List.Forall₂ (fun d h => Shows d.2.1 d.1 d.2.2 h)
      (dated (p.trigger % 2 ^ 30) ((sigs.flatMap Signal.packets).map (fun w => (chip, w)) ++ ps)) hits) :
    ∃ hits', hits = pictureHits chip p sigs ++ hits' ∧ List.Forall₂ (fun d h => Shows d.2.1 d.1 d.2.2 h)
      (dated ((sigs.foldl Past.after p).trigger % 2 ^ 30) ps) hits' := by
  induction sigs generalizing p hits with
  | nil => exact ⟨hits, rfl, hd⟩
  | cons s ss ih =>
    obtain ⟨h1, h2⟩ := hs
    rw [List.flatMap_cons, List.map_append, List.append_assoc] at hd
    cases s with
    | trigger u =>
      obtain ⟨f1, f2, -⟩ := triggerWord_fields u
      rw [packets_trigger] at hd
      simp only [List.map_cons, List.map_nil, List.cons_append, List.nil_append, dated, if_neg f2, if_pos f1, triggerWord_low] at hd
      exact ih (p.after (.trigger u)) h2 hits hd
    | clock u =>
      obtain ⟨-, f2, f3, -⟩ := clockLow_fields u
      obtain ⟨-, g2, g3, -⟩ := clockHigh_fields u
      rw [packets_clock] at hd
      simp only [List.map_cons, List.map_nil, List.cons_append, List.nil_append, dated, if_neg f2, if_neg f3, if_neg g2, if_neg g3] at hd
      exact ih (p.after (.clock u)) h2 hits hd
    | pixel u col row tot ftoa =>
      obtain ⟨hok, t1, t2⟩ := h1
      obtain ⟨f1, -⟩ := pixelWord_fields (t := u) hok
      rw [packets_pixel] at hd
      simp only [List.map_cons, List.map_nil, List.cons_append, List.nil_append, dated, if_pos f1] at hd
      cases hd with
      | @cons _ h _ hits hsh hd =>
        obtain ⟨hits', e, k⟩ := ih (p.after (.pixel u col row tot ftoa)) h2 hits hd
        refine ⟨hits', ?_, k⟩
        rw [shows_pixel hok hsh, same_turn t1 t2, e]
        rfl

theorem allTimelyD_append {p : Past} {l l' : List Signal} :
    AllTimelyD p (l ++ l') ↔ AllTimelyD p l ∧ AllTimelyD (l.foldl Past.after p) l' := by
  induction l generalizing p with
  | nil => simp [AllTimelyD]
  | cons s l ih => simp only [List.cons_append, AllTimelyD, List.foldl_cons]; rw [ih, and_assoc]

theorem readouts_shown (rs : List Readout) (hok : ∀ r ∈ rs, r.Ok) (p : Past) (hs : AllTimelyD p (rs.flatMap Readout.signals))
    (hits : List DisplayHit)
    (hd : List.Forall₂ (fun d h => Shows d.2.1 d.1 d.2.2 h) (dated (p.trigger % 2 ^ 30) (chunkPackets (rs.map Readout.chunk))) hits) :
    hits = pictureReadouts p rs := by
  induction rs generalizing p hits with
  | nil => cases hd; rfl
  | cons r rs ih =>
    rw [List.flatMap_cons, allTimelyD_append] at hs
    obtain ⟨-, hc⟩ := readout_header (hok r (by simp))
    have e1 : chunkPackets ((r :: rs).map Readout.chunk) =
        (r.signals.flatMap Signal.packets).map (fun w => ((r.chip : Int), w)) ++ chunkPackets (rs.map Readout.chunk) := by
      rw [List.map_cons, chunkPackets_cons, hc]; rfl
    rw [e1] at hd
    obtain ⟨hits', e, k⟩ := signals_shown r.chip r.signals p hs.1 _ hits hd
    rw [e, ih (fun r' h' => hok r' (by simp [h'])) _ hs.2 hits' k]
    rfl

theorem signalOk_of_timelyD {p : Past} {sigs : List Signal} (h : AllTimelyD p sigs) : ∀ s ∈ sigs, SignalOk s := by
  induction sigs generalizing p with
  | nil => simp
  | cons s ss ih =>
    intro s' hs'
    rcases List.mem_cons.mp hs' with rfl | hs'
    · cases s' with
      | trigger t => trivial
      | clock t => trivial
      | pixel t col row tot ftoa => exact h.1.1
    · exact ih h.2 s' hs'

/-- C103: of a detector whose readouts have numbers of packets that the program takes, and whose pixels fire in the same turn of the
30-bit clock as the trigger before, the program reads the true hits of all firing pixels, in order. -/
theorem c103_hits_partial (rs : List Readout) (hok : ∀ r ∈ rs, r.Ok ∧ r.Short) (hs : AllTimelyD ⟨0, 0⟩ (rs.flatMap Readout.signals)) :
    ∃ s, fileToHits (detectorFile rs) = .ok s ∧ s.hits = pictureReadouts ⟨0, 0⟩ rs := by
  have hsig := signalOk_of_timelyD hs
  obtain ⟨s, h1, h2⟩ := c64_complete_partial (rs.map Readout.chunk)
    (by simp only [List.mem_map]; rintro c ⟨r, hr, rfl⟩; exact (readout_header (hok r hr).1).1)
    (by
      simp only [List.mem_map]; rintro c ⟨r, hr, rfl⟩
      exact readout_noLookAlike (hok r hr).1 fun s hs => hsig s (List.mem_flatMap.mpr ⟨r, hr, hs⟩))
    (by simp only [List.mem_map]; rintro c ⟨r, hr, rfl⟩; exact (hok r hr).2)
  exact ⟨s, h1, readouts_shown rs (fun r hr => (hok r hr).1) ⟨0, 0⟩ hs s.hits h2⟩

/-! ## Neutrons -/

theorem clusters_snoc {hs : List DisplayHit} {h : DisplayHit} {os cl : List (List DisplayHit)} (hc : ClustersOf (hs ++ [h]) os cl) :
    (∃ a b g, os = a ++ (g ++ [h]) :: b ∧ ClustersOf hs (a ++ g :: b) cl ∧ Joins g h) ∨
    (∃ os', os = os' ++ [[h]] ∧ ClustersOf hs os' cl ∧ (∀ g ∈ os', ¬ Joins g h) ∧ os'.length < 127) ∨
    (∃ os' g cl', os = os' ++ [[h]] ∧ cl = cl' ++ [g] ∧ ClustersOf hs (g :: os') cl' ∧ (∀ g' ∈ g :: os', ¬ Joins g' h) ∧
      (g :: os').length = 127) := by
  generalize hl : hs ++ [h] = l at hc
  cases hc with
  | nil => simp at hl
  | join hs' a b cl g h' hc hj =>
    obtain ⟨rfl, e⟩ := List.append_inj' hl rfl
    obtain rfl : h = h' := by simpa using e
    exact Or.inl ⟨a, b, g, rfl, hc, hj⟩
  | opens hs' os' cl h' hc hn hlt =>
    obtain ⟨rfl, e⟩ := List.append_inj' hl rfl
    obtain rfl : h = h' := by simpa using e
    exact Or.inr (Or.inl ⟨os', rfl, hc, hn, hlt⟩)
  | recycles hs' os' cl' g h' hc hn hlt =>
    obtain ⟨rfl, e⟩ := List.append_inj' hl rfl
    obtain rfl : h = h' := by simpa using e
    exact Or.inr (Or.inr ⟨os', g, cl', rfl, rfl, hc, hn, hlt⟩)

theorem mem_last {α : Type} {cl os a b : List α} {g : α} (h : cl ++ os = a ++ g :: b) (hl : b.length < os.length) : g ∈ os := by
  rcases List.append_eq_append_iff.mp h with ⟨m, e1, e2⟩ | ⟨m, e1, e2⟩
  · rw [e2]; simp
  · have := congrArg List.length e2
    cases m with
    | nil => rw [List.nil_append] at e2; rw [← e2]; simp
    | cons x m => simp at this; omega

/-- C103: however the clusters are formed, they are the neutrons; all but the last 127 are closed. -/
theorem c103_clusters {hs : List DisplayHit} {gs os cl : List (List DisplayHit)} (hn : NeutronHits hs gs) (hc : ClustersOf hs os cl) :
    cl ++ os = gs ∧ os.length = min 127 gs.length := by
  induction hn generalizing os cl with
  | nil =>
    generalize hl : ([] : List DisplayHit) = l at hc
    cases hc with
    | nil => simp
    | _ => simp at hl
  | again hs a b g h _ hb hj hnb hna ih =>
    rcases clusters_snoc hc with ⟨a', b', g', rfl, hc', hj'⟩ | ⟨os', rfl, hc', hno, hlt⟩ | ⟨os', g', cl', rfl, rfl, hc', hno, hlt⟩
    · obtain ⟨i1, i2⟩ := ih hc'
      rw [← List.append_assoc] at i1
      rcases List.append_eq_append_iff.mp i1 with ⟨m, e1, e2⟩ | ⟨m, e1, e2⟩
      · cases m with
        | nil =>
          rw [List.nil_append, List.cons.injEq] at e2
          obtain ⟨rfl, rfl⟩ := e2
          rw [List.append_nil] at e1
          subst e1
          exact ⟨by simp, by simpa using i2⟩
        | cons g'' m =>
          rw [List.cons_append, List.cons.injEq] at e2
          obtain ⟨rfl, rfl⟩ := e2
          refine absurd hj' (hna _ _ _ e1 ?_)
          simp only [List.length_append, List.length_cons] at i2 ⊢
          omega
      · cases m with
        | nil =>
          rw [List.nil_append, List.cons.injEq] at e2
          obtain ⟨rfl, rfl⟩ := e2
          rw [List.append_nil] at e1
          subst e1
          exact ⟨by simp, by simpa using i2⟩
        | cons g'' m =>
          rw [List.cons_append, List.cons.injEq] at e2
          obtain ⟨rfl, rfl⟩ := e2
          exact absurd hj' (hnb _ (by simp))
    · obtain ⟨i1, i2⟩ := ih hc'
      simp only [List.length_append, List.length_cons] at i2
      exact absurd hj (hno g (mem_last i1 (by omega)))
    · obtain ⟨i1, i2⟩ := ih hc'
      exact absurd hj (hno g (mem_last i1 (by omega)))
  | first hs gs h _ hno ih =>
    rcases clusters_snoc hc with ⟨a', b', g', rfl, hc', hj'⟩ | ⟨os', rfl, hc', hno', hlt⟩ | ⟨os', g', cl', rfl, rfl, hc', hno', hlt⟩
    · obtain ⟨i1, i2⟩ := ih hc'
      rw [← List.append_assoc] at i1
      refine absurd hj' (hno _ _ _ i1.symm ?_)
      simp only [List.length_append, List.length_cons] at i2
      omega
    · obtain ⟨i1, i2⟩ := ih hc'
      rw [← i1] at i2 ⊢
      simp only [List.length_append, List.length_cons, List.length_nil, List.append_assoc] at i2 ⊢
      exact ⟨trivial, by omega⟩
    · obtain ⟨i1, i2⟩ := ih hc'
      rw [← i1] at i2 ⊢
      simp only [List.length_append, List.length_cons, List.length_nil, List.append_assoc, List.cons_append, List.nil_append] at i2 hlt ⊢
      exact ⟨trivial, by omega⟩

/-! ## Places -/

theorem ofRat_near {q : ℚ} (m : ℤ) (hm : |m| ≤ 2 ^ 21) (h : |q| ≤ m) :
    ∃ r : ℚ, F64.ofRat q = .fin r ∧ |r| ≤ m ∧ |r - q| ≤ 1 / 2 ^ 32 := by
  have hq : |q| ≤ 2 ^ 21 := by
    have : (m : ℚ) ≤ 2 ^ 21 := by
      have := le_trans (le_abs_self m) hm
      exact_mod_cast this
    exact le_trans h this
  refine ⟨rndQ q, F64.ofRat_fin (hq.trans ?_), rnd_between m (le_trans hm (by norm_num)) h, rndQ_abs_err hq⟩
  rw [show (1000 : ℤ) = ((1000 : ℕ) : ℤ) from rfl, zpow_natCast]
  exact pow_le_pow_right₀ (by norm_num) (by norm_num)

/-- The mean computed is the exact one up to 2^-32. -/
theorem mean_near (r t : ℤ) (ht : 0 < t) (ht' : t < 2 ^ 31) (hr0 : 0 ≤ r) (hr' : r < 2 ^ 31) (hr : r ≤ 511 * t) :
    ∃ q : ℚ, F64.div (F64.mul (F64.ofInt 8) (F64.ofInt r)) (F64.ofInt t) = .fin q ∧ |q| ≤ (4088 : ℤ) ∧
      |q - 8 * ((r : ℚ) / t)| ≤ 1 / 2 ^ 32 := by
  rw [F64.ofInt_exact (n := 8) (by norm_num), F64.ofInt_exact (n := r) (by rw [abs_of_nonneg hr0]; omega),
    F64.ofInt_exact (n := t) (by rw [abs_of_pos ht]; omega)]
  have h1 : F64.mul (.fin ((8 : ℤ) : ℚ)) (.fin (r : ℚ)) = .fin ((8 * r : ℤ) : ℚ) := by
    show F64.ofRat _ = _
    rw [← Int.cast_mul]
    exact F64.ofRat_int (by rw [abs_of_nonneg (by omega)]; omega)
  rw [h1]
  have htq : (0 : ℚ) < t := by exact_mod_cast ht
  have h2 : F64.div (.fin ((8 * r : ℤ) : ℚ)) (.fin (t : ℚ)) = F64.ofRat (8 * ((r : ℚ) / t)) := by
    show (if (t : ℚ) = 0 then _ else _) = _
    rw [if_neg (ne_of_gt htq)]
    push_cast
    rw [mul_div_assoc]
  rw [h2]
  have hrq : (r : ℚ) ≤ 511 * t := by exact_mod_cast hr
  have hr0q : (0 : ℚ) ≤ r := by exact_mod_cast hr0
  apply ofRat_near 4088 (by norm_num)
  rw [abs_of_nonneg (by positivity), ← mul_div_assoc, div_le_iff₀ htq]
  push_cast
  linarith

theorem truncQ_near (q : ℚ) : |(F64.truncQ q : ℚ) - q| < 1 ∧ (-1 < q → 0 ≤ F64.truncQ q) ∧ ∀ m : ℤ, q < m → 0 < m → F64.truncQ q < m := by
  unfold F64.truncQ
  split_ifs with h0
  · have h1 := Int.floor_le q
    have h2 := Int.lt_floor_add_one q
    refine ⟨by rw [abs_lt]; constructor <;> linarith, fun _ => Int.floor_nonneg.mpr h0, fun m hm _ => Int.floor_lt.mpr hm⟩
  · have h1 := Int.le_ceil q
    have h2 := Int.ceil_lt_add_one q
    have h3 : ⌈q⌉ ≤ 0 := Int.ceil_le.mpr (by push_cast; linarith)
    refine ⟨by rw [abs_lt]; constructor <;> linarith, fun h => ?_, fun m _ hm => by omega⟩
    have : (-1 : ℚ) < ⌈q⌉ := lt_of_lt_of_le h h1
    have : (-1 : ℤ) < ⌈q⌉ := by exact_mod_cast this
    omega

/-- The rotated coordinate, as computed. -/
theorem turned_near {x y cs sn X Y : ℚ} (hx : |x| ≤ (4088 : ℤ)) (hy : |y| ≤ (4088 : ℤ)) (hcs : |cs| ≤ 1) (hsn : |sn| ≤ 1)
    (hX : |x - X| ≤ 1 / 2 ^ 32) (hY : |y - Y| ≤ 1 / 2 ^ 32) :
    ∃ r : ℚ, F64.add (F64.mul (.fin x) (.fin cs)) (F64.mul (.fin y) (.fin sn)) = .fin r ∧ |r| ≤ (8176 : ℤ) ∧
      |r - (X * cs + Y * sn)| ≤ 5 / 2 ^ 32 := by
  have prod : ∀ a b A : ℚ, |a| ≤ (4088 : ℤ) → |b| ≤ 1 → |a - A| ≤ 1 / 2 ^ 32 →
      ∃ r : ℚ, F64.mul (.fin a) (.fin b) = .fin r ∧ |r| ≤ (4088 : ℤ) ∧ |r - A * b| ≤ 2 / 2 ^ 32 := by
    intro a b A ha hb hA
    obtain ⟨r, e, h1, h2⟩ := ofRat_near (q := a * b) 4088 (by norm_num) (by
      rw [abs_mul]
      have := abs_nonneg a
      have := abs_nonneg b
      nlinarith)
    refine ⟨r, e, h1, ?_⟩
    have h3 : |a * b - A * b| ≤ 1 / 2 ^ 32 := by
      rw [← sub_mul, abs_mul]
      have := abs_nonneg (a - A)
      have := abs_nonneg b
      nlinarith
    have := abs_sub_le r (a * b) (A * b)
    have : (2 : ℚ) / 2 ^ 32 = 1 / 2 ^ 32 + 1 / 2 ^ 32 := by ring
    linarith
  obtain ⟨p1, e1, b1, c1⟩ := prod x cs X hx hcs hX
  obtain ⟨p2, e2, b2, c2⟩ := prod y sn Y hy hsn hY
  obtain ⟨r, e, h1, h2⟩ := ofRat_near (q := p1 + p2) 8176 (by norm_num) (by
    have := abs_add_le p1 p2
    push_cast at b1 b2 ⊢
    linarith)
  refine ⟨r, by rw [e1, e2]; exact e, h1, ?_⟩
  rw [abs_le] at c1 c2 h2 ⊢
  constructor <;> linarith [c1.1, c1.2, c2.1, c2.2, h2.1, h2.2]

theorem mul_neg_sin {y sn : ℚ} (hy : |y| ≤ (4088 : ℤ)) (hsn : |sn| ≤ 1) :
    F64.neg (F64.mul (.fin y) (.fin sn)) = F64.mul (.fin y) (.fin (-sn)) := by
  have hb : |y * sn| ≤ (2 : ℚ) ^ (1000 : ℤ) := by
    have h1 : |y * sn| ≤ 2 ^ 12 := by
      rw [abs_mul]
      have := abs_nonneg y
      have := abs_nonneg sn
      push_cast at hy
      nlinarith
    refine h1.trans ?_
    rw [show (1000 : ℤ) = ((1000 : ℕ) : ℤ) from rfl, zpow_natCast]
    exact pow_le_pow_right₀ (by norm_num) (by norm_num)
  show F64.neg (F64.ofRat (y * sn)) = F64.ofRat (y * -sn)
  rw [mul_neg, F64.ofRat_fin hb, F64.ofRat_fin (by rwa [abs_neg]), rndQ_neg]
  rfl

/-- C103: a neutron of up to 4108 hits is shown where it is. -/
theorem c103_place (cs sn : ℚ) (hcs : |cs| ≤ 1) (hsn : |sn| ≤ 1) (c : ShownCluster) (g : List DisplayHit) (hs : Summarises c g)
    (hg : ∀ h ∈ g, IsPixelHit h ∧ 0 < h.tot) (hne : g ≠ []) (hlen : g.length ≤ 4108) :
    ∃ l, c.place (.fin cs) (.fin sn) = .ok l ∧ ShownAt cs sn g l := by
  obtain ⟨⟨i1, i2⟩, ⟨i3, i4, i5⟩, i6, i7, i8⟩ := sums_bound g fun a ha => (hg a ha).1
  have hpos : 0 < (g.map (·.tot)).sum := by
    cases g with
    | nil => exact absurd rfl hne
    | cons a g => exact tot_pos _ (fun a ha => (hg a ha).1) ⟨a, by simp, (hg a (by simp)).2⟩
  obtain ⟨x, ex, bx, nx⟩ := mean_near (g.map fun h => h.tot * h.x).sum (g.map (·.tot)).sum hpos (by omega) i3 (by omega) i5
  obtain ⟨y, ey, b_y, ny⟩ := mean_near (g.map fun h => h.tot * h.y).sum (g.map (·.tot)).sum hpos (by omega) i6 (by omega) i8
  rw [← hs.rx, ← hs.tot] at ex
  rw [← hs.ry, ← hs.tot] at ey
  obtain ⟨q1, e1, b1, n1⟩ := turned_near bx b_y hcs (by rwa [abs_neg] : |-sn| ≤ 1) nx ny
  obtain ⟨q2, e2, b2, n2⟩ := turned_near bx b_y hsn hcs nx ny
  have hneg : F64.sub (F64.mul (.fin x) (.fin cs)) (F64.mul (.fin y) (.fin sn)) =
      F64.add (F64.mul (.fin x) (.fin cs)) (F64.mul (.fin y) (.fin (-sn))) := by
    unfold F64.sub
    congr 1
    exact mul_neg_sin b_y hsn
  rw [← hneg] at e1
  have hX : turnedX cs sn g = 8 * (((g.map fun h => h.tot * h.x).sum : ℤ) / ((g.map (·.tot)).sum : ℤ) : ℚ) * cs +
      8 * (((g.map fun h => h.tot * h.y).sum : ℤ) / ((g.map (·.tot)).sum : ℤ) : ℚ) * -sn := by
    unfold turnedX weightedMean; ring
  have hY : turnedY cs sn g = 8 * (((g.map fun h => h.tot * h.x).sum : ℤ) / ((g.map (·.tot)).sum : ℤ) : ℚ) * sn +
      8 * (((g.map fun h => h.tot * h.y).sum : ℤ) / ((g.map (·.tot)).sum : ℤ) : ℚ) * cs := by
    unfold turnedY weightedMean; ring
  rw [← hX] at n1
  rw [← hY] at n2
  have cast : ∀ q : ℚ, |q| ≤ (8176 : ℤ) → F64.toI32? (.fin q) = some (F64.truncQ q) := by
    intro q hq
    have ht := truncQ_between 8176 hq
    rw [abs_le] at ht
    show (if _ then _ else _) = _
    rw [if_pos ⟨by omega, by omega⟩]
  refine ⟨if 0 ≤ F64.truncQ q1 ∧ F64.truncQ q1 < 4096 ∧ 0 ≤ F64.truncQ q2 ∧ F64.truncQ q2 < 4096 then
    [(F64.truncQ q1, F64.truncQ q2)] else [], ?_, ?_⟩
  · unfold ShownCluster.place
    simp only [ex, ey, e1, e2, cast q1 b1, cast q2 b2]
  · obtain ⟨k1, k2, k3⟩ := truncQ_near q1
    obtain ⟨l1, l2, l3⟩ := truncQ_near q2
    have hsmall : (5 : ℚ) / 2 ^ 32 < 1 / 2 ^ 29 := by norm_num
    have hsmall' : (5 : ℚ) / 2 ^ 32 < 1 := by norm_num
    rw [abs_le] at n1 n2
    rw [abs_lt] at k1 l1
    refine ⟨?_, fun x1 x2 y1 y2 => ?_⟩
    · split_ifs
      · refine Or.inr ⟨_, rfl, ?_, ?_⟩ <;> rw [abs_lt] <;> constructor <;> linarith [n1.1, n1.2, n2.1, n2.2, k1.1, k1.2, l1.1, l1.2]
      · exact Or.inl rfl
    · rw [if_pos ⟨k2 (by linarith [n1.1]), k3 4096 (by push_cast; linarith [n1.2]) (by norm_num), l2 (by linarith [n2.1]),
        l3 4096 (by push_cast; linarith [n2.2]) (by norm_num)⟩]
      simp

theorem neutrons_size {hs : List DisplayHit} {gs : List (List DisplayHit)} (hn : NeutronHits hs gs) {n : Nat}
    (hsz : ∀ g ∈ gs, g.length ≤ n) (hs' : List DisplayHit) (hp : hs' <+: hs) :
    ∃ gs', NeutronHits hs' gs' ∧ ∀ g ∈ gs', g.length ≤ n := by
  induction hn with
  | nil => rw [List.prefix_nil.mp hp]; exact ⟨[], .nil, by simp⟩
  | again hs a b g h hn' hb hj hnb hna ih =>
    rcases List.prefix_concat_iff.mp hp with rfl | hp
    · exact ⟨_, .again hs a b g h hn' hb hj hnb hna, hsz⟩
    · refine ih (fun g' hg' => ?_) hp
      simp only [List.mem_append, List.mem_cons] at hg'
      rcases hg' with hg' | rfl | hg'
      · exact hsz g' (by simp [hg'])
      · have := hsz (g' ++ [h]) (by simp)
        rw [List.length_append] at this
        omega
      · exact hsz g' (by simp [hg'])
  | first hs gs h hn' hno ih =>
    rcases List.prefix_concat_iff.mp hp with rfl | hp
    · exact ⟨_, .first hs gs h hn' hno, hsz⟩
    · exact ih (fun g' hg' => hsz g' (by simp [hg'])) hp

/-- C103 for the clustering: the hits of neutrons of at most 4108 hits each are put together by neutron; all neutrons but the last 127
are counted, and those of more than ten hits are shown where they are. -/
theorem c103_worker_partial (cs sn : ℚ) (hcs : |cs| ≤ 1) (hsn : |sn| ≤ 1) (hits : List DisplayHit) (gs : List (List DisplayHit))
    (hpix : ∀ h ∈ hits, IsPixelHit h ∧ 0 < h.tot) (hn : NeutronHits hits gs) (hsz : ∀ g ∈ gs, g.length ≤ 4108) :
    ∃ w, HitWorker.init.run (.fin cs) (.fin sn) hits = .ok w ∧ w.total = gs.length - 127 ∧
      w.accepted = (shownNeutrons gs).length ∧
      ∃ ls, List.Forall₂ (ShownAt cs sn) (shownNeutrons gs) ls ∧ w.shown = ls.flatten := by
  have hsize : ∀ hs os cl, hs <+: hits → ClustersOf hs os cl → ∀ g ∈ os, g.length ≤ 4108 := by
    intro hs os cl hp hc g hg
    obtain ⟨gs', h1, h2⟩ := neutrons_size hn hsz hs hp
    obtain ⟨e, -⟩ := c103_clusters h1 hc
    exact h2 g (by rw [← e]; simp [hg])
  obtain ⟨w, hw⟩ := run_ok cs sn hcs hsn hits hpix hsize hits HitWorker.init [] [] [] (holdsClusters_init _ _) ClustersOf.nil rfl
  obtain ⟨os, cl, h1, h2, h3, h4, ls, h5, h6⟩ := c67_clusters_partial _ _ hits w hw
  obtain ⟨e1, e2⟩ := c103_clusters hn h1
  obtain ⟨-, -, part⟩ := c67_partition hits os cl h1
  have hcl : cl = gs.take (gs.length - 127) := by
    rw [← e1, List.length_append] at e2
    rw [← e1, List.length_append, List.take_append_of_le_length (by omega), List.take_of_length_le (by omega)]
  have hlen : cl.length = gs.length - 127 := by rw [hcl, List.length_take]; omega
  refine ⟨w, hw, by rw [h3, hlen], ?_, ?_⟩
  · rw [h4, List.countP_eq_length_filter, hcl]; rfl
  · have hall : ∀ g ∈ cl, (∀ h ∈ g, IsPixelHit h ∧ 0 < h.tot) ∧ g ≠ [] ∧ g.length ≤ 4108 := by
      intro g hg
      obtain ⟨p1, f, p2, -⟩ := part g (by simp [hg])
      exact ⟨fun h hh => hpix h (p1.subset hh), by rintro rfl; simp at p2, hsz g (by rw [← e1]; simp [hg])⟩
    unfold shownNeutrons
    rw [← hcl, h6]
    clear hw h1 h3 h4 h6 e1 part hcl hlen e2
    generalize w.popped = ps at h2 h5
    induction h5 generalizing cl with
    | nil => cases h2; exact ⟨[], .nil, rfl⟩
    | @cons c l ps ls hcl _ ih =>
      cases h2 with
      | @cons _ g _ cl hs h2 =>
        obtain ⟨ls', k1, k2⟩ := ih cl (fun g' hg' => hall g' (by simp [hg'])) h2
        obtain ⟨a1, a2, a3⟩ := hall g (by simp)
        have hp := hs.pix
        by_cases hb : 10 < g.length
        · rw [if_pos (by rw [hp]; exact_mod_cast hb)] at hcl
          obtain ⟨l', m1, m2⟩ := c103_place cs sn hcs hsn c g hs a1 a2 a3
          rw [m1] at hcl
          injection hcl with hcl
          subst hcl
          refine ⟨l' :: ls', ?_, by rw [List.flatten_cons, List.flatten_cons, k2]⟩
          rw [List.filter_cons_of_pos (by simpa using hb)]
          exact .cons m2 k1
        · rw [if_neg (by rw [hp]; omega)] at hcl
          subst hcl
          refine ⟨ls', ?_, by rw [List.flatten_cons, List.nil_append, k2]⟩
          rw [List.filter_cons_of_neg (by simpa using hb)]
          exact k1

/-- All pixels of the signals have a positive time over threshold. -/
def Lit (sigs : List Signal) : Prop := ∀ t col row tot ftoa, Signal.pixel t col row tot ftoa ∈ sigs → 0 < tot

theorem pictureHits_pixel (chip : Int) (sigs : List Signal) (p : Past) (hs : AllTimelyD p sigs) (hl : Lit sigs) :
    ∀ h ∈ pictureHits chip p sigs, IsPixelHit h ∧ 0 < h.tot := by
  induction sigs generalizing p with
  | nil => simp [pictureHits]
  | cons s ss ih =>
    have hl' : Lit ss := fun t col row tot ftoa h => hl t col row tot ftoa (by simp [h])
    cases s with
    | trigger u => exact ih _ hs.2 hl'
    | clock u => exact ih _ hs.2 hl'
    | pixel u col row tot ftoa =>
      intro h hh
      rcases List.mem_cons.mp hh with rfl | hh
      · obtain ⟨⟨b1, b2, b3, b4⟩, -⟩ := hs.1
        have := hl u col row tot ftoa (by simp)
        unfold IsPixelHit pictureHit onPicture
        simp only
        split_ifs <;> simp only <;> omega
      · exact ih _ hs.2 hl' h hh

theorem pictureReadouts_pixel (rs : List Readout) (p : Past) (hs : AllTimelyD p (rs.flatMap Readout.signals))
    (hl : Lit (rs.flatMap Readout.signals)) : ∀ h ∈ pictureReadouts p rs, IsPixelHit h ∧ 0 < h.tot := by
  induction rs generalizing p with
  | nil => simp [pictureReadouts]
  | cons r rs ih =>
    rw [List.flatMap_cons, allTimelyD_append] at hs
    intro h hh
    rcases List.mem_append.mp hh with hh | hh
    · exact pictureHits_pixel r.chip r.signals p hs.1 (fun t col row tot ftoa h => hl t col row tot ftoa (by simp [h])) h hh
    · exact ih _ hs.2 (fun t col row tot ftoa h => hl t col row tot ftoa (by rw [List.flatMap_cons]; simp [-List.mem_flatMap, h])) h hh

/-- C103: of a detector the display counts all neutrons but the last 127, and shows those of more than ten pixels where they are.  The two
threads get turns again and again, and the timer stops the second only after it has taken all hits. -/
theorem c103_neutrons_partial (rs : List Readout) (hok : ∀ r ∈ rs, r.Ok ∧ r.Short) (hs : AllTimelyD ⟨0, 0⟩ (rs.flatMap Readout.signals))
    (hl : Lit (rs.flatMap Readout.signals)) (gs : List (List DisplayHit)) (hn : NeutronHits (pictureReadouts ⟨0, 0⟩ rs) gs)
    (hsz : ∀ g ∈ gs, g.length ≤ 4108) (cs sn : ℚ) (hcs : |cs| ≤ 1) (hsn : |sn| ≤ 1) :
    ∃ s, fileToHits (detectorFile rs) = .ok s ∧ ∀ (junk : Nat → DisplayHit) (sched : Nat → RingActor),
      (∀ n, ∃ m, n ≤ m ∧ sched m = .producer) → (∀ n, ∃ m, n ≤ m ∧ sched m = .consumer) →
      (∀ n, sched n = .timer → ((Ring.init junk).run s.hits sched n).fileDone = true →
        ((Ring.init junk).run s.hits sched n).got.length = s.hits.length) →
      ∃ n, ∀ m, n ≤ m → ∃ w, HitWorker.init.run (.fin cs) (.fin sn) ((Ring.init junk).run s.hits sched m).got = .ok w ∧
        w.total = gs.length - 127 ∧ w.accepted = (shownNeutrons gs).length ∧
        ∃ ls, List.Forall₂ (ShownAt cs sn) (shownNeutrons gs) ls ∧ w.shown = ls.flatten := by
  obtain ⟨s, h1, h2⟩ := c103_hits_partial rs hok hs
  refine ⟨s, h1, fun junk sched hp hc ht => ?_⟩
  obtain ⟨n, hgot⟩ := c54_delivered_partial s.hits junk sched hp hc ht
  refine ⟨n, fun m hm => ?_⟩
  rw [hgot m hm, h2]
  exact c103_worker_partial cs sn hcs hsn _ gs (pictureReadouts_pixel rs _ hs hl) hn hsz

/-! ## Neutrons apart in time -/

/-- All hits within two ticks and five pixels of each other. -/
def Compact (g : List DisplayHit) : Prop :=
  ∀ h ∈ g, ∀ h' ∈ g, h.spdr ≤ h'.spdr + 2 ∧ h.x ≤ h'.x + 5 ∧ h.y ≤ h'.y + 5

/-- No hit of the one within two ticks of a hit of the other. -/
def ApartInTime (g g' : List DisplayHit) : Prop := ∀ h ∈ g, ∀ h' ∈ g', h.spdr + 2 < h'.spdr ∨ h'.spdr + 2 < h.spdr

theorem joins_compact {g : List DisplayHit} {h : DisplayHit} (hne : g ≠ []) (hc : Compact (g ++ [h])) : Joins g h := by
  cases g with
  | nil => exact absurd rfl hne
  | cons f g =>
    obtain ⟨a1, a2, a3⟩ := hc f (by simp) h (by simp)
    obtain ⟨b1, b2, b3⟩ := hc h (by simp) f (by simp)
    exact ⟨⟨f, rfl, a1, b1⟩, ⟨f, by simp, b2⟩, ⟨f, by simp, a2⟩, ⟨f, by simp, b3⟩, ⟨f, by simp, a3⟩⟩

theorem joins_first {g : List DisplayHit} {h : DisplayHit} (hj : Joins g h) : ∃ f ∈ g, f.spdr ≤ h.spdr + 2 ∧ h.spdr ≤ f.spdr + 2 := by
  obtain ⟨⟨f, e, h1, h2⟩, -⟩ := hj
  exact ⟨f, List.mem_of_mem_head? e, h1, h2⟩

/-- C103: compact groups of hits that come one group after the other, with different times, are neutrons in the sense of the
theorems above. -/
theorem c103_apart (gs : List (List DisplayHit)) (h1 : ∀ g ∈ gs, g ≠ [] ∧ Compact g) (h2 : gs.Pairwise ApartInTime) :
    NeutronHits gs.flatten gs := by
  induction gs using List.reverseRecOn with
  | nil => exact .nil
  | append_singleton gs g ih =>
    rw [List.pairwise_append] at h2
    obtain ⟨k1, -, k3⟩ := h2
    have hn := ih (fun g hg => h1 g (by simp [hg])) k1
    have hno : ∀ g' ∈ gs, ∀ h ∈ g, ¬ Joins g' h := by
      intro g' hg' h hh hj
      obtain ⟨f, hf, w1, w2⟩ := joins_first hj
      rcases k3 g' hg' g (by simp) f hf h hh with k | k <;> omega
    obtain ⟨hne, hc⟩ := h1 g (by simp)
    rw [List.flatten_append]
    simp only [List.flatten_cons, List.flatten_nil, List.append_nil]
    clear h1 k3
    induction g using List.reverseRecOn with
    | nil => exact absurd rfl hne
    | append_singleton g h ihg =>
      cases g with
      | nil =>
        refine .first _ gs h hn fun a g' b e _ => hno g' (by rw [e]; simp) h (by simp)
      | cons f g =>
        rw [← List.append_assoc]
        refine .again _ gs [] (f :: g) h (ihg (fun g' hg' h' hh' => hno g' hg' h' (by simp only [List.mem_append]; exact Or.inl hh')) (by simp) ?_)
          (by simp) (joins_compact (by simp) hc) (by simp) ?_
        · intro a ha b hb
          exact hc a (by simp only [List.mem_append]; exact Or.inl ha) b (by simp only [List.mem_append]; exact Or.inl hb)
        · intro a₁ g' a₂ e _
          exact hno g' (by rw [e]; simp) h (by simp)

/-! ## Where the property fails -/

/-- C103 fails for the time of flight: if a multiple of 2^30 ticks lies between the trigger and the pixel, the time read is 3 * 2^30 ticks
(80 s) too long. -/
theorem c103_false_turn (T t col row tot ftoa : Nat) (hok : PixelOk col row tot ftoa) (h1 : t / 2 ^ 30 = T / 2 ^ 30 + 1)
    (h2 : t < T + 2 ^ 30) (hd : ¬ (Signal.pixel t col row tot ftoa).Disguised) :
    ∃ s, fileToHits (detectorFile [⟨0, [.trigger T, .pixel t col row tot ftoa]⟩]) = .ok s ∧
      s.hits = [{ pictureHit 0 T t col row tot ftoa with tof := BitVec.ofNat 32 (t - T + 3 * 2 ^ 30) }] := by
  have hp : (⟨0, [.trigger T, .pixel t col row tot ftoa]⟩ : Readout).packets = [triggerWord T, pixelWord t col row tot ftoa] := by
    unfold Readout.packets
    rw [List.flatMap_cons, List.flatMap_cons, packets_trigger, packets_pixel]
    rfl
  have hr : (⟨0, [.trigger T, .pixel t col row tot ftoa]⟩ : Readout).Ok :=
    ⟨by simp, by rw [hp]; simp, by simp only [List.mem_cons, List.not_mem_nil, or_false]; rintro s (rfl | rfl); exacts [id, hd]⟩
  obtain ⟨s, e1, e2⟩ := c64_complete_partial [Readout.chunk ⟨0, [.trigger T, .pixel t col row tot ftoa]⟩]
    (by simp only [List.mem_singleton]; rintro c rfl; exact (readout_header hr).1)
    (by
      simp only [List.mem_singleton]; rintro c rfl
      refine readout_noLookAlike hr ?_
      simp only [List.mem_cons, List.not_mem_nil, or_false]
      rintro s (rfl | rfl)
      exacts [trivial, hok])
    (by simp only [List.mem_singleton]; rintro c rfl; show _ ∧ _; unfold Readout.chunk; simp only [hp]; simp)
  refine ⟨s, e1, ?_⟩
  rw [chunkPackets_cons, (readout_header hr).2] at e2
  obtain ⟨f1, f2, -⟩ := triggerWord_fields T
  obtain ⟨g1, -⟩ := pixelWord_fields (t := t) hok
  have e3 : (Readout.chunk ⟨0, [.trigger T, .pixel t col row tot ftoa]⟩).packets = [triggerWord T, pixelWord t col row tot ftoa] := hp
  rw [e3] at e2
  have hnil : chunkPackets [] = [] := rfl
  simp only [hnil, List.map_cons, List.map_nil, List.append_nil, dated, if_neg f2, if_pos f1, if_pos g1, triggerWord_low] at e2
  generalize s.hits = hs at e2
  cases e2 with
  | @cons _ h _ hs a b =>
    cases b
    have ht : BitVec.ofNat 32 (t % 2 ^ 30 + 2 ^ 32 - T % 2 ^ 30) = BitVec.ofNat 32 (t - T + 3 * 2 ^ 30) := by
      apply BitVec.eq_of_toNat_eq
      rw [BitVec.toNat_ofNat, BitVec.toNat_ofNat]
      omega
    rw [shows_pixel hok a, ht]
    rfl

example : PixelOk 3 4 5 6 ∧ (2 ^ 30) / 2 ^ 30 = (2 ^ 30 - 1) / 2 ^ 30 + 1 ∧ 2 ^ 30 < (2 ^ 30 - 1) + 2 ^ 30 ∧
    ¬ (Signal.pixel (2 ^ 30) 3 4 5 6).Disguised := by unfold PixelOk; decide

/-- C103 fails for the last 127 neutrons: if there are no more, none is counted or shown. -/
theorem c103_false_few (cos sin : F64) (hits : List DisplayHit) (gs : List (List DisplayHit)) (hn : NeutronHits hits gs)
    (hl : gs.length ≤ 127) (w : HitWorker) (hr : HitWorker.init.run cos sin hits = .ok w) : w.total = 0 ∧ w.shown = [] := by
  obtain ⟨os, cl, h1, h2, h3, -, ls, h5, h6⟩ := c67_clusters_partial cos sin hits w hr
  obtain ⟨e1, e2⟩ := c103_clusters hn h1
  have hcl : cl = [] := by
    have := congrArg List.length e1
    rw [List.length_append] at this
    exact List.eq_nil_of_length_eq_zero (by omega)
  subst hcl
  generalize w.popped = ps at h2 h5
  cases h2
  cases h5
  exact ⟨h3, h6⟩

/-! ## A detector to which the theorems apply -/

/-- Neutron `k`: eleven pixels around column 20 and row `k`. -/
def elevenPixels (k : Nat) : List Signal := (List.range 11).map fun i => .pixel (1000 + 10 * k) (20 + i % 4) (k + i / 4) (5 + i) i

/-- A trigger, then `n` neutrons on chip 1. -/
def neutronShow (n : Nat) : List Readout := ⟨1, [.trigger 900]⟩ :: (List.range n).map fun k => ⟨1, elevenPixels k⟩

/-- The hits of neutron `k`. -/
def elevenHits (k : Nat) : List DisplayHit :=
  (List.range 11).map fun i => pictureHit 1 900 (1000 + 10 * k) (20 + i % 4) (k + i / 4) (5 + i) i

theorem pictureHits_pixels (chip : Int) (p : Past) (l : List Nat) (t col row tot ftoa : Nat → Nat) :
    pictureHits chip p (l.map fun i => .pixel (t i) (col i) (row i) (tot i) (ftoa i)) =
      (l.map fun i => pictureHit chip p.trigger (t i) (col i) (row i) (tot i) (ftoa i)) ∧
    (l.map fun i => Signal.pixel (t i) (col i) (row i) (tot i) (ftoa i)).foldl Past.after p = p := by
  induction l with
  | nil => exact ⟨rfl, rfl⟩
  | cons i l ih =>
    refine ⟨?_, ih.2⟩
    rw [List.map_cons, List.map_cons, pictureHits, ih.1]

theorem show_hits (n : Nat) : pictureReadouts ⟨0, 0⟩ (neutronShow n) = ((List.range n).map elevenHits).flatten := by
  have key : ∀ l : List Nat, pictureReadouts ⟨900, 0⟩ (l.map fun k => ⟨1, elevenPixels k⟩) = (l.map elevenHits).flatten := by
    intro l
    induction l with
    | nil => rfl
    | cons k l ih =>
      obtain ⟨a1, a2⟩ := pictureHits_pixels 1 ⟨900, 0⟩ (List.range 11) (fun _ => 1000 + 10 * k) (fun i => 20 + i % 4)
        (fun i => k + i / 4) (fun i => 5 + i) (fun i => i)
      rw [List.map_cons, pictureReadouts, List.map_cons, List.flatten_cons]
      simp only [elevenPixels]
      rw [a2]
      simp only [elevenPixels] at ih
      rw [ih]
      have : pictureHits ((1 : Nat) : Int) ⟨900, 0⟩ ((List.range 11).map fun i => .pixel (1000 + 10 * k) (20 + i % 4) (k + i / 4) (5 + i) i) =
          elevenHits k := a1
      rw [this]
  exact key (List.range n)

theorem show_neutrons (n : Nat) (hn : n < 2 ^ 20) : NeutronHits (pictureReadouts ⟨0, 0⟩ (neutronShow n)) ((List.range n).map elevenHits) := by
  rw [show_hits]
  apply c103_apart
  · intro g hg
    obtain ⟨k, hk, rfl⟩ := List.mem_map.mp hg
    refine ⟨by simp [elevenHits], ?_⟩
    intro h hh h' hh'
    obtain ⟨i, hi, rfl⟩ := List.mem_map.mp hh
    obtain ⟨j, hj, rfl⟩ := List.mem_map.mp hh'
    rw [List.mem_range] at hi hj
    simp only [pictureHit, onPicture]
    norm_num
    omega
  · rw [List.pairwise_map]
    refine List.Pairwise.imp_of_mem ?_ List.pairwise_lt_range
    intro k k' hk hk' hlt h hh h' hh'
    rw [List.mem_range] at hk hk'
    obtain ⟨i, hi, rfl⟩ := List.mem_map.mp hh
    obtain ⟨j, hj, rfl⟩ := List.mem_map.mp hh'
    simp only [pictureHit]
    rw [Nat.mod_eq_of_lt (by omega : 1000 + 10 * k < 2 ^ 30), Nat.mod_eq_of_lt (by omega : 1000 + 10 * k' < 2 ^ 30)]
    omega

theorem timelyD_of (p : Past) (sigs : List Signal) (h : ∀ s ∈ sigs, s.TimelyD p ∧ p.after s = p) :
    AllTimelyD p sigs ∧ sigs.foldl Past.after p = p := by
  induction sigs with
  | nil => exact ⟨trivial, rfl⟩
  | cons s ss ih =>
    obtain ⟨h1, h2⟩ := h s (by simp)
    simp only [AllTimelyD, List.foldl_cons, h2]
    exact ⟨⟨h1, (ih fun s' hs' => h s' (by simp [hs'])).1⟩, (ih fun s' hs' => h s' (by simp [hs'])).2⟩

/-- The hypotheses of the theorems hold for up to 200 neutrons, so for 200 of them 73 are counted and shown. -/
theorem show_ok (n : Nat) (hn : n ≤ 200) : (∀ r ∈ neutronShow n, r.Ok ∧ r.Short) ∧
    AllTimelyD ⟨0, 0⟩ ((neutronShow n).flatMap Readout.signals) ∧ Lit ((neutronShow n).flatMap Readout.signals) ∧
    NeutronHits (pictureReadouts ⟨0, 0⟩ (neutronShow n)) ((List.range n).map elevenHits) ∧
    (∀ g ∈ (List.range n).map elevenHits, g.length ≤ 4108) ∧ (shownNeutrons ((List.range n).map elevenHits)).length = n - 127 := by
  refine ⟨?_, ?_, ?_, show_neutrons n (by omega), ?_, ?_⟩
  · intro r hr
    rcases List.mem_cons.mp hr with rfl | hr
    · exact ⟨⟨by decide, by decide, by simp [Signal.Disguised]⟩, by unfold Readout.Short; decide⟩
    · obtain ⟨k, hk, rfl⟩ := List.mem_map.mp hr
      have hlen : (⟨1, elevenPixels k⟩ : Readout).packets.length = 11 := by
        simp [Readout.packets, elevenPixels, Signal.packets, List.range_succ]
      refine ⟨⟨by simp, by rw [hlen]; decide, ?_⟩, by rw [Readout.Short, hlen]; decide⟩
      intro s hs
      obtain ⟨i, hi, rfl⟩ := List.mem_map.mp hs
      rw [List.mem_range] at hk
      simp only [Signal.Disguised]
      omega
  · rw [neutronShow, List.flatMap_cons]
    refine ⟨trivial, (timelyD_of _ _ ?_).1⟩
    intro s hs
    obtain ⟨r, hr, hs⟩ := List.mem_flatMap.mp hs
    obtain ⟨k, hk, rfl⟩ := List.mem_map.mp hr
    obtain ⟨i, hi, rfl⟩ := List.mem_map.mp hs
    rw [List.mem_range] at hk hi
    refine ⟨⟨⟨by omega, by omega, by omega, by omega⟩, ?_, ?_⟩, rfl⟩ <;> simp only [Past.after] <;> omega
  · intro t col row tot ftoa h
    obtain ⟨r, hr, hs⟩ := List.mem_flatMap.mp h
    rcases List.mem_cons.mp hr with rfl | hr
    · simp at hs
    · obtain ⟨k, hk, rfl⟩ := List.mem_map.mp hr
      obtain ⟨i, hi, e⟩ := List.mem_map.mp hs
      injection e
      omega
  · intro g hg
    obtain ⟨k, hk, rfl⟩ := List.mem_map.mp hg
    simp [elevenHits]
  · unfold shownNeutrons
    rw [List.filter_eq_self.mpr]
    · simp
    · intro g hg
      obtain ⟨k, hk, rfl⟩ := List.mem_map.mp (List.mem_of_mem_take hg)
      simp [elevenHits]

example : (shownNeutrons ((List.range 200).map elevenHits)).length = 73 := (show_ok 200 (Nat.le_refl _)).2.2.2.2.2

end Verif.Props
