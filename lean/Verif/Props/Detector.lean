import Verif.Spec.Detector
import Verif.Props.Hit
import Verif.Lemmas.Tpx3
import Verif.Props.EndToEnd

/-!
# C92: the true times are recovered from the packets; C93: and the true hits and neutrons from the file
-/

namespace Verif.Props

open Verif Verif.Spec

theorem address_lt {col row : Nat} (hc : col < 256) (hr : row < 256) : pixelAddress col row < 2 ^ 16 := by
  unfold pixelAddress; omega

/-- The word of a pixel. -/
def pixelWord (t col row tot ftoa : Nat) : U64 :=
  BitVec.ofNat 64 (0xB * 2 ^ 60 + pixelAddress col row * 2 ^ 44 + t % 2 ^ 14 * 2 ^ 30 + tot * 2 ^ 20 + ftoa * 2 ^ 16 +
      t / 2 ^ 14 % 2 ^ 16)

theorem pixelWord_toNat {t col row tot ftoa : Nat} (h : PixelOk col row tot ftoa) :
    (pixelWord t col row tot ftoa).toNat = 0xB * 2 ^ 60 + pixelAddress col row * 2 ^ 44 + t % 2 ^ 14 * 2 ^ 30 + tot * 2 ^ 20 +
      ftoa * 2 ^ 16 + t / 2 ^ 14 % 2 ^ 16 := by
  obtain ⟨h1, h2, h3, h4⟩ := h
  have h5 := address_lt h1 h2
  unfold pixelWord
  rw [BitVec.toNat_ofNat]
  apply Nat.mod_eq_of_lt
  generalize pixelAddress col row = a at *
  omega

theorem pixelWord_fields {t col row tot ftoa : Nat} (h : PixelOk col row tot ftoa) :
    IsHitPacket (pixelWord t col row tot ftoa) ∧ ¬ IsTriggerPacket (pixelWord t col row tot ftoa) ∧
    ¬ IsGlobalPacket (pixelWord t col row tot ftoa) ∧ clock30 (pixelWord t col row tot ftoa) = t % 2 ^ 30 ∧
    decTot (pixelWord t col row tot ftoa) = tot ∧ decToa (pixelWord t col row tot ftoa) = t % 2 ^ 14 ∧
    decFtoa (pixelWord t col row tot ftoa) = ftoa ∧ (decPixaddr (pixelWord t col row tot ftoa)).toNat = pixelAddress col row := by
  have hw := pixelWord_toNat (t := t) h
  obtain ⟨h1, h2, h3, h4⟩ := h
  have h5 := address_lt h1 h2
  have ha : t / 2 ^ 14 % 2 ^ 16 < 2 ^ 16 := Nat.mod_lt _ (by norm_num)
  have hb : t % 2 ^ 14 < 2 ^ 14 := Nat.mod_lt _ (by norm_num)
  have hc : t % 2 ^ 30 = t / 2 ^ 14 % 2 ^ 16 * 2 ^ 14 + t % 2 ^ 14 := by omega
  rw [hc]
  unfold IsHitPacket IsTriggerPacket IsGlobalPacket clock30 kind field
  rw [decTot_eq, decToa_eq, decFtoa_eq, decPixaddr_toNat, hw]
  generalize pixelAddress col row = a at *
  generalize t / 2 ^ 14 % 2 ^ 16 = b at *
  generalize t % 2 ^ 14 = c at *
  clear hc hw
  refine ⟨?_, ?_, ?_, ?_, ?_, ?_, ?_, ?_⟩ <;> omega

theorem pixel_position {t col row tot ftoa : Nat} (h : PixelOk col row tot ftoa) (chip : Int) :
    layoutXY chip (pixelXY (decPixaddr (pixelWord t col row tot ftoa))) = onDetector chip col row := by
  have ha := (pixelWord_fields (t := t) h).2.2.2.2.2.2.2
  obtain ⟨h1, h2, h3, h4⟩ := h
  rw [pixelXY_eq, ha]
  unfold pixelAddress layoutXY onDetector
  split_ifs <;> simp only [Prod.mk.injEq] <;> omega

/-- The hit decoded with the global clock is the true one. -/
theorem pixel_global {p : Past} {t col row tot ftoa : Nat} (chip : Int) (hT : p.trigger ≠ 0) (hG : p.clock ≠ 0)
    (hlt : p.trigger < 2 ^ 48) (hgt : p.clock < 2 ^ 48 - 2 ^ 30)
    (h : (Signal.pixel t col row tot ftoa).TimelyG p) :
    hitGdc (pixelWord t col row tot ftoa) (BitVec.ofNat 64 p.trigger) (BitVec.ofNat 64 p.clock) chip =
      trueHit chip p.trigger t col row tot ftoa := by
  obtain ⟨hok, htime⟩ := h
  obtain ⟨t1, t2, t3, t4⟩ := htime hT hG
  obtain ⟨-, -, -, f4, f5, f6, f7, -⟩ := pixelWord_fields (t := t) hok
  have hpos := pixel_position (t := t) hok chip
  have hg : (BitVec.ofNat 64 p.clock).toNat = p.clock := by rw [BitVec.toNat_ofNat]; omega
  have htr : (BitVec.ofNat 64 p.trigger).toNat = p.trigger := by rw [BitVec.toNat_ofNat]; omega
  have ht : (BitVec.ofNat 64 t).toNat = t := by rw [BitVec.toNat_ofNat]; omega
  have harr : IsArrival (t % 2 ^ 30) p.clock t := ⟨rfl, by omega, by omega⟩
  generalize pixelWord t col row tot ftoa = w at *
  have hiff := c04_arrival_iff w (BitVec.ofNat 64 p.trigger) (BitVec.ofNat 64 p.clock) chip (by rw [hg]; omega)
  rw [f4, hg] at hiff
  have hs := hiff.mpr ⟨by omega, by omega⟩
  have hsp : (hitGdc w (BitVec.ofNat 64 p.trigger) (BitVec.ofNat 64 p.clock) chip).spidertime = BitVec.ofNat 64 t :=
    BitVec.eq_of_toNat_eq (by rw [ht]; exact hs.unique harr)
  have htof : (hitGdc w (BitVec.ofNat 64 p.trigger) (BitVec.ofNat 64 p.clock) chip).tof = some (BitVec.ofNat 32 (t - p.trigger)) := by
    obtain ⟨r, e1, -⟩ := c05_bounded w (BitVec.ofNat 64 p.trigger) (BitVec.ofNat 64 p.clock) chip
    obtain ⟨-, e2⟩ := c05_residue_partial w _ _ chip r e1 (by rw [hsp, ht, htr]; exact t1) (by rw [hsp, ht, htr]; omega)
    rw [hsp, ht, htr] at e2
    rw [e1]
    congr 1
    apply BitVec.eq_of_toNat_eq
    rw [e2 (by omega), BitVec.toNat_ofNat, Nat.mod_eq_of_lt (by omega)]
  have hx := congrArg Prod.fst hpos
  have hy := congrArg Prod.snd hpos
  generalize hh : hitGdc w (BitVec.ofNat 64 p.trigger) (BitVec.ofNat 64 p.clock) chip = H at *
  have e1 : H.x = (layoutXY chip (pixelXY (decPixaddr w))).1 := by rw [← hh]; rfl
  have e2 : H.y = (layoutXY chip (pixelXY (decPixaddr w))).2 := by rw [← hh]; rfl
  have e3 : H.tot = (decTot w : Nat) := by rw [← hh]; rfl
  have e4 : H.toa = (decToa w : Nat) := by rw [← hh]; rfl
  have e5 : H.ftoa = (decFtoa w : Nat) := by rw [← hh]; rfl
  rw [hx] at e1
  rw [hy] at e2
  rw [f5] at e3
  rw [f6] at e4
  rw [f7] at e5
  clear hh hx hy
  obtain ⟨x, y, a, b, c, d, e⟩ := H
  simp only at e1 e2 e3 e4 e5 hsp htof
  subst e1 e2 e3 e4 e5 hsp htof
  rfl

/-- The hit decoded with the trigger alone is the true one. -/
theorem pixel_trigger {p : Past} {t col row tot ftoa : Nat} (chip : Int) (hT : p.trigger ≠ 0) (hlt : p.trigger < 2 ^ 31)
    (h : (Signal.pixel t col row tot ftoa).TimelyT p) :
    hitTdc (pixelWord t col row tot ftoa) (BitVec.ofNat 64 p.trigger) chip = trueHit chip p.trigger t col row tot ftoa := by
  obtain ⟨hok, htime⟩ := h
  obtain ⟨t1, t2, t3⟩ := htime hT
  obtain ⟨-, -, -, f4, f5, f6, f7, -⟩ := pixelWord_fields (t := t) hok
  have hpos := pixel_position (t := t) hok chip
  have htr : (BitVec.ofNat 64 p.trigger).toNat = p.trigger := by rw [BitVec.toNat_ofNat]; omega
  have ht : (BitVec.ofNat 64 t).toNat = t := by rw [BitVec.toNat_ofNat]; omega
  generalize pixelWord t col row tot ftoa = w at *
  have hsp : (hitTdc w (BitVec.ofNat 64 p.trigger) chip).spidertime = BitVec.ofNat 64 t := by
    apply BitVec.eq_of_toNat_eq
    rw [c06_arrival, f4, htr, ht]
    split_ifs <;> omega
  have htof : (hitTdc w (BitVec.ofNat 64 p.trigger) chip).tof = some (BitVec.ofNat 32 (t - p.trigger)) := by
    obtain ⟨r, e1, e2⟩ := (c06_tof_iff w (BitVec.ofNat 64 p.trigger) chip).1 (by rw [hsp, ht, htr]; exact t1)
    rw [hsp, ht, htr] at e2
    rw [e1]
    congr 1
    apply BitVec.eq_of_toNat_eq
    rw [e2, BitVec.toNat_ofNat, Nat.mod_eq_of_lt (by omega)]
  have hx := congrArg Prod.fst hpos
  have hy := congrArg Prod.snd hpos
  generalize hh : hitTdc w (BitVec.ofNat 64 p.trigger) chip = H at *
  have e1 : H.x = (layoutXY chip (pixelXY (decPixaddr w))).1 := by rw [← hh]; rfl
  have e2 : H.y = (layoutXY chip (pixelXY (decPixaddr w))).2 := by rw [← hh]; rfl
  have e3 : H.tot = (decTot w : Nat) := by rw [← hh]; rfl
  have e4 : H.toa = (decToa w : Nat) := by rw [← hh]; rfl
  have e5 : H.ftoa = (decFtoa w : Nat) := by rw [← hh]; rfl
  rw [hx] at e1
  rw [hy] at e2
  rw [f5] at e3
  rw [f6] at e4
  rw [f7] at e5
  clear hh hx hy
  obtain ⟨x, y, a, b, c, d, e⟩ := H
  simp only at e1 e2 e3 e4 e5 hsp htof
  subst e1 e2 e3 e4 e5 hsp htof
  rfl

/-- The word of a trigger. -/
def triggerWord (t : Nat) : U64 := BitVec.ofNat 64 (0x6F * 2 ^ 56 + t % 2 ^ 32 * 2 ^ 12)

/-- The words of a clock. -/
def clockLow (t : Nat) : U64 := BitVec.ofNat 64 (0x44 * 2 ^ 56 + t % 2 ^ 32 * 2 ^ 16)
def clockHigh (t : Nat) : U64 := BitVec.ofNat 64 (0x45 * 2 ^ 56 + t / 2 ^ 32 % 2 ^ 16 * 2 ^ 16)

theorem packets_trigger (t : Nat) : (Signal.trigger t).packets = [triggerWord t] := by
  unfold Signal.packets triggerWord; exact Eq.refl _
theorem packets_clock (t : Nat) : (Signal.clock t).packets = [clockLow t, clockHigh t] := by
  unfold Signal.packets clockLow clockHigh; exact Eq.refl _
theorem packets_pixel (t col row tot ftoa : Nat) :
    (Signal.pixel t col row tot ftoa).packets = [pixelWord t col row tot ftoa] := by
  unfold Signal.packets pixelWord; exact Eq.refl _

theorem triggerWord_fields (t : Nat) :
    IsTriggerPacket (triggerWord t) ∧ ¬ IsHitPacket (triggerWord t) ∧ field (triggerWord t) 12 32 = t % 2 ^ 32 := by
  unfold IsTriggerPacket IsHitPacket kind field triggerWord
  rw [BitVec.toNat_ofNat]
  have : t % 2 ^ 32 < 2 ^ 32 := Nat.mod_lt _ (by norm_num)
  generalize t % 2 ^ 32 = m at *
  refine ⟨?_, ?_, ?_⟩ <;> omega

theorem clockLow_fields (t : Nat) :
    IsGlobalPacket (clockLow t) ∧ ¬ IsTriggerPacket (clockLow t) ∧ ¬ IsHitPacket (clockLow t) ∧ field (clockLow t) 56 4 = 4 ∧
      field (clockLow t) 16 32 = t % 2 ^ 32 := by
  unfold IsGlobalPacket IsTriggerPacket IsHitPacket kind field clockLow
  rw [BitVec.toNat_ofNat]
  have : t % 2 ^ 32 < 2 ^ 32 := Nat.mod_lt _ (by norm_num)
  generalize t % 2 ^ 32 = m at *
  refine ⟨?_, ?_, ?_, ?_, ?_⟩ <;> omega

theorem clockHigh_fields (t : Nat) :
    IsGlobalPacket (clockHigh t) ∧ ¬ IsTriggerPacket (clockHigh t) ∧ ¬ IsHitPacket (clockHigh t) ∧ field (clockHigh t) 56 4 = 5 ∧
      field (clockHigh t) 16 16 = t / 2 ^ 32 % 2 ^ 16 := by
  unfold IsGlobalPacket IsTriggerPacket IsHitPacket kind field clockHigh
  rw [BitVec.toNat_ofNat]
  have : t / 2 ^ 32 % 2 ^ 16 < 2 ^ 16 := Nat.mod_lt _ (by norm_num)
  generalize t / 2 ^ 32 % 2 ^ 16 = m at *
  refine ⟨?_, ?_, ?_, ?_, ?_⟩ <;> omega

/-- The times the program keeps are those of the last trigger and clock. -/
def Keeps (p : Past) (t : Times) : Prop := t.tdc = p.trigger ∧ t.gdc = p.clock

theorem signal_global {p : Past} {t : Times} (hk : Keeps p t) (s : Signal)
    (hs : s.TimelyG p) : Keeps (p.after s) (timesG t s.packets) := by
  obtain ⟨k1, k2⟩ := hk
  cases s with
  | trigger u =>
    obtain ⟨a1, a2, a3, a4⟩ := hs
    obtain ⟨f1, f2, f3⟩ := triggerWord_fields u
    rw [packets_trigger]
    simp only [timesG, List.foldl_cons, List.foldl_nil, nextG, if_pos f1, Past.after, f3]
    refine ⟨?_, k2⟩
    simp only [triggerTime, k2]
    omega
  | clock u =>
    obtain ⟨a1, a2⟩ := hs
    obtain ⟨f1, f2, f3, f4, f5⟩ := clockLow_fields u
    obtain ⟨g1, g2, g3, g4, g5⟩ := clockHigh_fields u
    have hval : u / 2 ^ 32 % 2 ^ 16 * 2 ^ 32 + u % 2 ^ 32 = u := by omega
    rw [packets_clock]
    simp only [timesG, List.foldl_cons, List.foldl_nil]
    generalize clockLow u = w1 at *
    generalize clockHigh u = w2 at *
    have n1 : nextG w1 t = { t with low := u % 2 ^ 32 } := by
      rw [nextG, if_neg f2, if_pos f1, if_pos f4, f5]
    rw [n1]
    have n2 : nextG w2 { t with low := u % 2 ^ 32 } = { tdc := t.tdc, gdc := u, low := u % 2 ^ 32 } := by
      rw [nextG, if_neg g2, if_pos g1, if_neg (by rw [g4]; decide), g5]
      simp only [hval]
      rw [if_pos ⟨g4, by omega⟩]
    rw [n2]
    exact ⟨k1, rfl⟩
  | pixel u col row tot ftoa =>
    obtain ⟨hok, -⟩ := hs
    obtain ⟨f1, f2, f3, -⟩ := pixelWord_fields (t := u) hok
    have : timesG t (Signal.pixel u col row tot ftoa).packets = t := by
      rw [packets_pixel, timesG, List.foldl_cons, List.foldl_nil]
      rw [nextG, if_neg f2, if_neg f3]
    rw [this]
    exact ⟨k1, k2⟩

theorem signal_trigger {p : Past} {t : Times} (hk : t.tdc = p.trigger) (hp : p.trigger < 2 ^ 31) (s : Signal)
    (hs : s.TimelyT p) : (timesT t s.packets).tdc = (p.after s).trigger := by
  cases s with
  | trigger u =>
    obtain ⟨a1, a2⟩ := hs
    obtain ⟨f1, f2, f3⟩ := triggerWord_fields u
    rw [packets_trigger]
    simp only [timesT, List.foldl_cons, List.foldl_nil, nextT, if_pos f1, Past.after, f3]
    simp only [rollTime, hk]
    split_ifs <;> omega
  | clock u =>
    obtain ⟨f1, f2, f3, -⟩ := clockLow_fields u
    obtain ⟨g1, g2, g3, -⟩ := clockHigh_fields u
    rw [packets_clock]
    simp only [timesT, List.foldl_cons, List.foldl_nil, nextT, if_neg f2, if_neg g2, Past.after]
    exact hk
  | pixel u col row tot ftoa =>
    obtain ⟨hok, -⟩ := hs
    obtain ⟨f1, f2, f3, -⟩ := pixelWord_fields (t := u) hok
    have : timesT t (Signal.pixel u col row tot ftoa).packets = t := by
      rw [packets_pixel, timesT, List.foldl_cons, List.foldl_nil]
      rw [nextT, if_neg f2]
    rw [this]
    exact hk

theorem hitsG_append (chip : Int) (t : Times) (l l' : List U64) :
    hitsG chip t (l ++ l') = hitsG chip t l ++ hitsG chip (timesG t l) l' := by
  induction l generalizing t with
  | nil => rfl
  | cons w l ih => rw [List.cons_append, hitsG_cons, hitsG_cons, ih, List.append_assoc, timesG_cons]

theorem hitsT_append (chip : Int) (t : Times) (l l' : List U64) :
    hitsT chip t (l ++ l') = hitsT chip t l ++ hitsT chip (timesT t l) l' := by
  induction l generalizing t with
  | nil => rfl
  | cons w l ih => rw [List.cons_append, hitsT_cons, hitsT_cons, ih, List.append_assoc, timesT_cons]

/-- With the global clock: the hits decoded from the packets of the signals are the true hits, and the times kept are the true ones. -/
theorem c92_global (chip : Int) (sigs : List Signal) (p : Past) (t : Times) (hk : Keeps p t)
    (hp : p.trigger < 2 ^ 48 ∧ p.clock < 2 ^ 48 - 2 ^ 30) (hs : AllTimelyG p sigs) :
    hitsG chip t (sigs.flatMap Signal.packets) = trueHits true chip p sigs ∧
      Keeps (sigs.foldl Past.after p) (timesG t (sigs.flatMap Signal.packets)) := by
  induction sigs generalizing p t with
  | nil => exact ⟨rfl, hk⟩
  | cons s ss ih =>
    obtain ⟨h1, h2⟩ := hs
    have hk' := signal_global hk s h1
    have hp' : (p.after s).trigger < 2 ^ 48 ∧ (p.after s).clock < 2 ^ 48 - 2 ^ 30 := by
      cases s with
      | trigger u => exact ⟨h1.2.2.2, hp.2⟩
      | clock u => exact ⟨hp.1, h1.2⟩
      | pixel => exact hp
    obtain ⟨i1, i2⟩ := ih (p.after s) _ hk' hp' h2
    have happ : timesG t ((s :: ss).flatMap Signal.packets) = timesG (timesG t s.packets) (ss.flatMap Signal.packets) := by
      rw [List.flatMap_cons, timesG, List.foldl_append]; rfl
    refine ⟨?_, by rw [happ]; exact i2⟩
    rw [List.flatMap_cons, hitsG_append, i1, trueHits]
    congr 1
    cases s with
    | trigger u =>
      obtain ⟨f1, f2, f3⟩ := triggerWord_fields u
      rw [packets_trigger]
      simp only [hitsG_cons, f2, false_and, if_false, List.nil_append]
      rfl
    | clock u =>
      obtain ⟨f1, f2, f3, -⟩ := clockLow_fields u
      obtain ⟨g1, g2, g3, -⟩ := clockHigh_fields u
      rw [packets_clock]
      simp only [hitsG_cons, f3, g3, false_and, if_false, List.nil_append]
      rfl
    | pixel u col row tot ftoa =>
      obtain ⟨f1, -⟩ := pixelWord_fields (t := u) h1.1
      rw [packets_pixel, hitsG_cons, hk.1, hk.2]
      have hnil : ∀ t, hitsG chip t [] = [] := fun _ => rfl
      rw [hnil, List.append_nil]
      by_cases hc : p.trigger ≠ 0 ∧ p.clock ≠ 0
      · rw [if_pos ⟨f1, hc⟩, pixel_global chip hc.1 hc.2 hp.1 hp.2 h1]
        rw [Signal.hit, if_pos ⟨hc.1, fun _ => hc.2⟩]
      · rw [if_neg (fun h => hc h.2)]
        rw [Signal.hit, if_neg (fun h => hc ⟨h.1, h.2 rfl⟩)]

/-- With the triggers alone: the same, without need of a clock. -/
theorem c92_trigger (chip : Int) (sigs : List Signal) (p : Past) (t : Times) (hk : t.tdc = p.trigger)
    (hp : p.trigger < 2 ^ 31) (hs : AllTimelyT p sigs) :
    hitsT chip t (sigs.flatMap Signal.packets) = trueHits false chip p sigs ∧
      (timesT t (sigs.flatMap Signal.packets)).tdc = (sigs.foldl Past.after p).trigger := by
  induction sigs generalizing p t with
  | nil => exact ⟨rfl, hk⟩
  | cons s ss ih =>
    obtain ⟨h1, h2⟩ := hs
    have hk' := signal_trigger hk hp s h1
    have hp' : (p.after s).trigger < 2 ^ 31 := by
      cases s with
      | trigger u => exact h1.2
      | clock u => exact hp
      | pixel => exact hp
    obtain ⟨i1, i2⟩ := ih (p.after s) _ hk' hp' h2
    have happ : timesT t ((s :: ss).flatMap Signal.packets) = timesT (timesT t s.packets) (ss.flatMap Signal.packets) := by
      rw [List.flatMap_cons, timesT, List.foldl_append]; rfl
    refine ⟨?_, by rw [happ]; exact i2⟩
    rw [List.flatMap_cons, hitsT_append, i1, trueHits]
    congr 1
    cases s with
    | trigger u =>
      obtain ⟨f1, f2, f3⟩ := triggerWord_fields u
      rw [packets_trigger]
      simp only [hitsT_cons, f2, false_and, if_false, List.nil_append]
      rfl
    | clock u =>
      obtain ⟨f1, f2, f3, -⟩ := clockLow_fields u
      obtain ⟨g1, g2, g3, -⟩ := clockHigh_fields u
      rw [packets_clock]
      simp only [hitsT_cons, f3, g3, false_and, if_false, List.nil_append]
      rfl
    | pixel u col row tot ftoa =>
      obtain ⟨f1, -⟩ := pixelWord_fields (t := u) h1.1
      rw [packets_pixel, hitsT_cons, hk]
      have hnil : ∀ t, hitsT chip t [] = [] := fun _ => rfl
      rw [hnil, List.append_nil]
      by_cases hc : p.trigger ≠ 0
      · rw [if_pos ⟨f1, hc⟩, pixel_trigger chip hc hp h1]
        rw [Signal.hit, if_pos ⟨hc, fun h => absurd h (by decide)⟩]
      · rw [if_neg (fun h => hc h.2)]
        rw [Signal.hit, if_neg (fun h => hc h.1)]

theorem trueHits_clocked (chip : Int) (sigs : List Signal) (p : Past) (hc : p.clock ≠ 0) (hs : AllTimelyG p sigs) :
    trueHits true chip p sigs = trueHits false chip p sigs := by
  induction sigs generalizing p with
  | nil => rfl
  | cons s ss ih =>
    obtain ⟨h1, h2⟩ := hs
    have hc' : (p.after s).clock ≠ 0 := by
      cases s with
      | trigger u => exact hc
      | clock u => exact Nat.pos_iff_ne_zero.mp h1.1
      | pixel => exact hc
    rw [trueHits, trueHits, ih _ hc' h2]
    congr 1
    cases s with
    | pixel u col row tot ftoa => simp [Signal.hit, hc]
    | _ => rfl

/-- Once a clock is known, the two modes give the same hits, if the times are such that both are right. -/
theorem c92_agree (chip : Int) (sigs : List Signal) (p : Past) (t t' : Times) (hk : Keeps p t) (hk' : t'.tdc = p.trigger)
    (hp : p.trigger < 2 ^ 31) (hc : p.clock ≠ 0) (hc' : p.clock < 2 ^ 48 - 2 ^ 30) (hG : AllTimelyG p sigs) (hT : AllTimelyT p sigs) :
    hitsG chip t (sigs.flatMap Signal.packets) = hitsT chip t' (sigs.flatMap Signal.packets) := by
  rw [(c92_global chip sigs p t hk ⟨by omega, hc'⟩ hG).1, (c92_trigger chip sigs p t' hk' hp hT).1,
    trueHits_clocked chip sigs p hc hG]

/-- Clock, trigger, two pixels; another trigger, a late clock, a pixel; times above 2^40. -/
def exSignals (b : Nat) : List Signal :=
  [.clock (b + 7), .trigger (b + 1000), .pixel (b + 1500) 3 4 25 6, .pixel (b + 600000) 255 255 1023 15, .trigger (b + 667667),
    .clock (b + 668000), .pixel (b + 667900) 128 17 9 0]

example : AllTimelyG ⟨0, 0⟩ (exSignals (2 ^ 24)) ∧ AllTimelyT ⟨0, 0⟩ (exSignals (2 ^ 24)) ∧
    AllTimelyG ⟨0, 2 ^ 40⟩ (exSignals (2 ^ 40)) ∧
    (trueHits true 2 ⟨0, 0⟩ (exSignals (2 ^ 40))).map (fun h => (h.x, h.y, h.tof, h.spidertime)) =
      [(252, 511, some 500#32, BitVec.ofNat 64 (2 ^ 40 + 1500)), (0, 260, some 599000#32, BitVec.ofNat 64 (2 ^ 40 + 600000)),
        (127, 498, some 233#32, BitVec.ofNat 64 (2 ^ 40 + 667900))] := by
  refine ⟨?_, ?_, ?_, by decide +kernel⟩ <;>
    norm_num [exSignals, AllTimelyG, AllTimelyT, Signal.TimelyG, Signal.TimelyT, Past.after, PixelOk]

/-- From the trigger alone the time of flight is lost 2^31 ticks (53.7 s) after the start: a pixel 10 ticks after the trigger. -/
theorem c92_false_late :
    (hitsT 0 ⟨0, 0, 0⟩ ([Signal.trigger (2 ^ 31 + 1000), .pixel (2 ^ 31 + 1010) 3 4 5 6].flatMap Signal.packets)).map
      (fun h => (h.tof, h.spidertime)) = [(none, 1073742834#64)] ∧
    (trueHits false 0 ⟨0, 0⟩ [.trigger (2 ^ 31 + 1000), .pixel (2 ^ 31 + 1010) 3 4 5 6]).map
      (fun h => (h.tof, h.spidertime)) = [(some 10#32, 2147484658#64)] := by
  decide +kernel

/-- With the clock, a pixel that fires 700000 ticks (17.5 ms) after the trigger gets 33333 ticks as its time of flight. -/
theorem c92_false_slow :
    (hitsG 0 ⟨0, 0, 0⟩ ([Signal.clock 1000, .trigger 2000, .pixel 702000 3 4 5 6].flatMap Signal.packets)).map
      (fun h => (h.tof, h.spidertime)) = [(some 33333#32, 702000#64)] ∧
    (trueHits true 0 ⟨0, 0⟩ [.clock 1000, .trigger 2000, .pixel 702000 3 4 5 6]).map
      (fun h => (h.tof, h.spidertime)) = [(some 700000#32, 702000#64)] := by
  decide +kernel

/-- With the clock, a pixel that fires 1 s after the last clock is dated 2^30 ticks too early; early in the run, before the start, which
wraps to a time near 2^64. -/
theorem c92_false_second :
    (hitsG 0 ⟨0, 0, 0⟩ ([Signal.clock 1000, .trigger 40001000, .pixel 40001001 3 4 5 6].flatMap Signal.packets)).map
      Hit.spidertime = [18446744072675810793#64] ∧
    (trueHits true 0 ⟨0, 0⟩ [.clock 1000, .trigger 40001000, .pixel 40001001 3 4 5 6]).map Hit.spidertime = [40001001#64] := by
  decide +kernel

/-! ### Files -/

theorem pixel_disguised {t col row tot ftoa : Nat} (h : PixelOk col row tot ftoa) :
    StartsTPX (pixelWord t col row tot ftoa) ↔ (Signal.pixel t col row tot ftoa).Disguised := by
  have hw := pixelWord_toNat (t := t) h
  obtain ⟨h1, h2, h3, h4⟩ := h
  have h5 := address_lt h1 h2
  have ha : t / 2 ^ 14 % 2 ^ 16 < 2 ^ 16 := Nat.mod_lt _ (by norm_num)
  have hb : t % 2 ^ 14 < 2 ^ 14 := Nat.mod_lt _ (by norm_num)
  have hd : (Signal.pixel t col row tot ftoa).Disguised ↔ t / 2 ^ 14 % 2 ^ 16 = 0x5054 ∧ tot % 16 = 5 ∧ ftoa = 8 := Iff.rfl
  rw [hd]
  unfold StartsTPX field
  rw [hw]
  generalize pixelAddress col row = a at *
  generalize t / 2 ^ 14 % 2 ^ 16 = b at *
  generalize t % 2 ^ 14 = c at *
  clear hw
  constructor
  · intro h
    refine ⟨?_, ?_, ?_⟩ <;> omega
  · rintro ⟨g1, g2, g3⟩
    omega

theorem trigger_plain (t : Nat) : ¬ StartsTPX (triggerWord t) := by
  unfold StartsTPX field triggerWord
  rw [BitVec.toNat_ofNat]
  generalize t % 2 ^ 32 = m
  omega

theorem clock_plain (t : Nat) : ¬ StartsTPX (clockLow t) ∧ ¬ StartsTPX (clockHigh t) := by
  unfold StartsTPX field clockLow clockHigh
  rw [BitVec.toNat_ofNat, BitVec.toNat_ofNat]
  generalize t % 2 ^ 32 = m
  generalize t / 2 ^ 32 % 2 ^ 16 = m'
  constructor <;> omega

/-- Pixels exist. -/
def SignalOk : Signal → Prop
  | .pixel _ col row tot ftoa => PixelOk col row tot ftoa
  | .trigger _ => True
  | .clock _ => True

/-- The packets of a readout look like headers exactly if a pixel is disguised. -/
theorem c92_disguise (s : Signal) (h : SignalOk s) : (∃ w ∈ s.packets, StartsTPX w) ↔ s.Disguised := by
  cases s with
  | trigger t => rw [packets_trigger]; simp [trigger_plain, Signal.Disguised]
  | clock t => rw [packets_clock]; simp [clock_plain, Signal.Disguised]
  | pixel t col row tot ftoa => rw [packets_pixel]; simp [pixel_disguised h]

theorem readout_noLookAlike {r : Readout} (hr : r.Ok) (hok : ∀ s ∈ r.signals, SignalOk s) : r.chunk.NoLookAlike := by
  intro w hw hs
  obtain ⟨s, h1, h2⟩ := List.mem_flatMap.mp (show w ∈ r.signals.flatMap Signal.packets from hw)
  exact hr.plain s h1 ((c92_disguise s (hok s h1)).mp ⟨w, h2, hs⟩)

theorem readout_header {r : Readout} (hr : r.Ok) : r.chunk.WellFormed ∧ headerChipId r.chunk.header = r.chip := by
  have h1 := hr.chip
  have h2 := hr.length
  have e : (r.header).toNat = 0x33585054 + r.chip * 2 ^ 32 + 8 * r.packets.length * 2 ^ 48 := by
    unfold Readout.header
    rw [BitVec.toNat_ofNat]
    apply Nat.mod_eq_of_lt
    omega
  unfold Chunk.WellFormed StartsTPX headerChipId Readout.chunk field
  simp only
  rw [e]
  generalize r.packets.length = l at *
  refine ⟨⟨by omega, by omega⟩, ?_⟩
  rw [if_pos (by omega)]
  omega

theorem signalOk_of_timelyG {p : Past} {sigs : List Signal} (h : AllTimelyG p sigs) : ∀ s ∈ sigs, SignalOk s := by
  induction sigs generalizing p with
  | nil => simp
  | cons s ss ih =>
    intro s' hs'
    rcases List.mem_cons.mp hs' with rfl | hs'
    · cases s' with
      | pixel => exact h.1.1
      | _ => trivial
    · exact ih h.2 s' hs'

theorem signalOk_of_timelyT {p : Past} {sigs : List Signal} (h : AllTimelyT p sigs) : ∀ s ∈ sigs, SignalOk s := by
  induction sigs generalizing p with
  | nil => simp
  | cons s ss ih =>
    intro s' hs'
    rcases List.mem_cons.mp hs' with rfl | hs'
    · cases s' with
      | pixel => exact h.1.1
      | _ => trivial
    · exact ih h.2 s' hs'

theorem past_boundedG {p : Past} {sigs : List Signal} (h : AllTimelyG p sigs) (hp : p.trigger < 2 ^ 48 ∧ p.clock < 2 ^ 48 - 2 ^ 30) :
    (sigs.foldl Past.after p).trigger < 2 ^ 48 ∧ (sigs.foldl Past.after p).clock < 2 ^ 48 - 2 ^ 30 := by
  induction sigs generalizing p with
  | nil => exact hp
  | cons s ss ih =>
    refine ih h.2 ?_
    cases s with
    | trigger u => exact ⟨h.1.2.2.2, hp.2⟩
    | clock u => exact ⟨hp.1, h.1.2⟩
    | pixel => exact hp

theorem past_boundedT {p : Past} {sigs : List Signal} (h : AllTimelyT p sigs) (hp : p.trigger < 2 ^ 31) :
    (sigs.foldl Past.after p).trigger < 2 ^ 31 := by
  induction sigs generalizing p with
  | nil => exact hp
  | cons s ss ih =>
    refine ih h.2 ?_
    cases s with
    | trigger u => exact h.1.2
    | clock u => exact hp
    | pixel => exact hp

theorem allTimelyG_append {p : Past} {l l' : List Signal} :
    AllTimelyG p (l ++ l') ↔ AllTimelyG p l ∧ AllTimelyG (l.foldl Past.after p) l' := by
  induction l generalizing p with
  | nil => simp [AllTimelyG]
  | cons s ss ih => simp [AllTimelyG, ih, and_assoc]

theorem allTimelyT_append {p : Past} {l l' : List Signal} :
    AllTimelyT p (l ++ l') ↔ AllTimelyT p l ∧ AllTimelyT (l.foldl Past.after p) l' := by
  induction l generalizing p with
  | nil => simp [AllTimelyT]
  | cons s ss ih => simp [AllTimelyT, ih, and_assoc]

/-- The signals of all readouts are timely, for the mode of the program. -/
def TimelyFile (m : Mode) (p : Past) (rs : List Readout) : Prop :=
  match m with
  | .gdc => AllTimelyG p (rs.flatMap Readout.signals)
  | .tdc => AllTimelyT p (rs.flatMap Readout.signals)

/-- Whether the mode needs a clock. -/
def needsClock : Mode → Bool
  | .gdc => true
  | .tdc => false

theorem file_signals {m : Mode} {p : Past} {rs : List Readout} (h : TimelyFile m p rs) : ∀ r ∈ rs, ∀ s ∈ r.signals, SignalOk s := by
  intro r hr s hs
  have hmem : s ∈ rs.flatMap Readout.signals := List.mem_flatMap.mpr ⟨r, hr, hs⟩
  cases m with
  | gdc => exact signalOk_of_timelyG h s hmem
  | tdc => exact signalOk_of_timelyT h s hmem

/-- The hits of every chunk of the file of a detector are the true hits of the readout. -/
theorem c93_chunks (m : Mode) (rs : List Readout) (hok : ∀ r ∈ rs, r.Ok) (p : Past) (t : Times) (hk : t.tdc = p.trigger)
    (hg : m = .gdc → t.gdc = p.clock ∧ p.trigger < 2 ^ 48 ∧ p.clock < 2 ^ 48 - 2 ^ 30) (ht : m = .tdc → p.trigger < 2 ^ 31)
    (h : TimelyFile m p rs) :
    chunkHits m t (rs.map Readout.chunk) = trueReadouts (needsClock m) p rs := by
  induction rs generalizing p t with
  | nil => rfl
  | cons r rs ih =>
    have hchip := (readout_header (hok r (by simp))).2
    have hok' : ∀ r ∈ rs, r.Ok := fun r' h' => hok r' (by simp [h'])
    rw [List.map_cons]
    cases m with
    | gdc =>
      simp only [TimelyFile, List.flatMap_cons] at h
      obtain ⟨h1, h2⟩ := allTimelyG_append.mp h
      obtain ⟨k1, k2⟩ := hg rfl
      obtain ⟨g1, g2⟩ := c92_global r.chip r.signals p t ⟨hk, k1⟩ k2 h1
      have ih' := ih hok' _ _ g2.1 (fun _ => ⟨g2.2, past_boundedG h1 k2⟩) (by simp) h2
      simp only [chunkHits, trueReadouts]
      rw [hchip]
      exact congrArg₂ _ g1 ih'
    | tdc =>
      simp only [TimelyFile, List.flatMap_cons] at h
      obtain ⟨h1, h2⟩ := allTimelyT_append.mp h
      obtain ⟨g1, g2⟩ := c92_trigger r.chip r.signals p t hk (ht rfl) h1
      have ih' := ih hok' _ _ g2 (by simp) (fun _ => past_boundedT h1 (ht rfl)) h2
      simp only [chunkHits, trueReadouts]
      rw [hchip]
      exact congrArg₂ _ g1 ih'

theorem file_streams {m : Mode} {rs : List Readout} (hok : ∀ r ∈ rs, r.Ok) (h : TimelyFile m ⟨0, 0⟩ rs) :
    (∀ k ∈ rs.map Readout.chunk, k.WellFormed) ∧ (∀ k ∈ rs.map Readout.chunk, k.NoLookAlike) ∧
      chunkHits m ⟨0, 0, 0⟩ (rs.map Readout.chunk) = trueReadouts (needsClock m) ⟨0, 0⟩ rs := by
  refine ⟨?_, ?_, c93_chunks m rs hok ⟨0, 0⟩ _ rfl (fun _ => ⟨rfl, by norm_num⟩) (fun _ => by norm_num) h⟩
  · intro k hk
    obtain ⟨r, hr, rfl⟩ := List.mem_map.mp hk
    exact (readout_header (hok r hr)).1
  · intro k hk
    obtain ⟨r, hr, rfl⟩ := List.mem_map.mp hk
    exact readout_noLookAlike (hok r hr) (file_signals h r hr)

theorem trueHits_earlyG (chip : Int) (sigs : List Signal) (p : Past) (hp : p.clock < 2 ^ 48 - 2 ^ 30) (h : AllTimelyG p sigs) :
    ∀ x ∈ trueHits true chip p sigs, x.spidertime.toNat < 2 ^ 48 := by
  induction sigs generalizing p with
  | nil => intro x hx; cases hx
  | cons s ss ih =>
    intro x hx
    rw [trueHits, List.mem_append] at hx
    rcases hx with hx | hx
    · cases s with
      | pixel t col row tot ftoa =>
        simp only [Signal.hit] at hx
        split_ifs at hx with hc
        · obtain ⟨-, h2⟩ := h.1
          obtain ⟨a1, a2, a3, a4⟩ := h2 hc.1 (hc.2 trivial)
          rw [List.mem_singleton] at hx
          subst hx
          show (BitVec.ofNat 64 t).toNat < 2 ^ 48
          rw [BitVec.toNat_ofNat]
          omega
        · cases hx
      | trigger u => cases hx
      | clock u => cases hx
    · refine ih _ ?_ h.2 x hx
      cases s with
      | trigger u => exact hp
      | clock u => exact h.1.2
      | pixel => exact hp

theorem trueReadouts_earlyG (rs : List Readout) (p : Past) (hp : p.trigger < 2 ^ 48 ∧ p.clock < 2 ^ 48 - 2 ^ 30)
    (h : AllTimelyG p (rs.flatMap Readout.signals)) :
    ∀ hs ∈ trueReadouts true p rs, ∀ x ∈ hs, x.spidertime.toNat < 2 ^ 48 := by
  induction rs generalizing p with
  | nil => intro hs hh; cases hh
  | cons r rs ih =>
    rw [List.flatMap_cons] at h
    obtain ⟨h1, h2⟩ := allTimelyG_append.mp h
    intro hs hh
    rw [trueReadouts, List.mem_cons] at hh
    rcases hh with rfl | hh
    · exact trueHits_earlyG _ _ p hp.2 h1
    · exact ih _ (past_boundedG h1 hp) h2 hs hh

/-- C93, hits: a run over the file of a detector that ends normally has written the true hits: places, times over threshold, times of
flight since the last trigger, and arrival times. -/
theorem c93_hits (o : ProgramOptions) (s : Settings) (solve : List GaussRow → F64 × F64) (fuel : Nat) (rs : List Readout) (hrs : rs ≠ [])
    (hok : ∀ r ∈ rs, r.Ok) (htime : TimelyFile o.mode ⟨0, 0⟩ rs) (hn0 : 0 < o.chunkSize)
    (hcut : ∀ j, j * o.chunkSize < (detectorFile rs).length → ∃ k, j * o.chunkSize = (detectorFile (rs.take k)).length)
    (w : Outputs) (h : mainCore o s solve (fun _ => {}) fuel (detectorFile rs) = .ok (.finished w)) :
    w.totalHits.toNat = (trueReadouts (needsClock o.mode) ⟨0, 0⟩ rs).flatten.length % 2 ^ 64 ∧
    (o.outHits ≠ [] → (trueReadouts (needsClock o.mode) ⟨0, 0⟩ rs).flatten ≠ [] → ∀ v ∈ hitAttrs,
      column w.hits "hits".toList v.1 = some ((trueReadouts (needsClock o.mode) ⟨0, 0⟩ rs).flatten.map fun x => .fin (v.2 x))) := by
  obtain ⟨f1, f2, f3⟩ := file_streams hok htime
  obtain ⟨bs, c, hrun, hhits, -, -, htot, -⟩ := c74_agree_partial o s solve fuel _ w h
  have hch := cliRun_chunks ⟨o.mode, s.params, solve⟩ o.chunkSize hn0 (rs.map Readout.chunk) (by simpa using hrs) f1 f2
    (by intro j hj; obtain ⟨k, hk⟩ := hcut j hj; exact ⟨k, by rw [hk, detectorFile, List.map_take]⟩) fuel bs c hrun
  rw [f3] at hch
  have hfl : hitsOf bs = (trueReadouts (needsClock o.mode) ⟨0, 0⟩ rs).flatten := by
    rw [← hch, hitsOf, List.flatMap_def]
  rw [hfl] at hhits htot
  refine ⟨htot, fun ho hne => (hhits ho).2.2 ?_ hne⟩
  intro hm x hx
  obtain ⟨hs, h1, h2⟩ := List.mem_flatten.mp hx
  rw [hm] at h1 htime
  exact trueReadouts_earlyG rs ⟨0, 0⟩ (by norm_num) htime hs h1 x h2

/-- C93, events: a run over the file of a detector that ends normally has written one event for every visible neutron of every readout
and no other, from the true hits.  Missing: neutrons with hits in two readouts, for which it is false (`c84_false_split`). -/
theorem c93_events_partial (o : ProgramOptions) (s : Settings) (solve : List GaussRow → F64 × F64) (fuel : Nat) (rs : List Readout)
    (hrs : rs ≠ []) (hok : ∀ r ∈ rs, r.Ok) (htime : TimelyFile o.mode ⟨0, 0⟩ rs) (hn0 : 0 < o.chunkSize)
    (hcut : ∀ j, j * o.chunkSize < (detectorFile rs).length → ∃ k, j * o.chunkSize = (detectorFile (rs.take k)).length)
    (w : Outputs) (h : mainCore o s solve (fun _ => {}) fuel (detectorFile rs) = .ok (.finished w))
    (r : ℚ) (hp : s.params.feature = .fin r) (hr : |r| ≤ 2 ^ 20) (hrange : s.params.range < 2 ^ 64)
    (ht : o.mode = .tdc → ∀ hs ∈ trueReadouts false ⟨0, 0⟩ rs, ∀ x ∈ hs, ∃ t, x.tof = some t ∧ t.toNat < 2 ^ 22)
    (neutron : List (List Int))
    (hres : List.Forall₂ (Resolved s.params.range r) (trueReadouts (needsClock o.mode) ⟨0, 0⟩ rs) neutron) :
    ∃ es : List Neutron,
      List.Forall₂ (IsEventOf 1)
        (List.zipWith (visible s.params.minSize) (trueReadouts (needsClock o.mode) ⟨0, 0⟩ rs) neutron).flatten es ∧
      w.totalNeutrons.toNat = es.length % 2 ^ 64 ∧
      (o.outEvents ≠ [] → (es = [] → w.events = []) ∧ (es ≠ [] →
        ∀ v ∈ neutronAttrs, column w.events "neutrons".toList v.1 = some (es.map v.2))) := by
  obtain ⟨f1, f2, f3⟩ := file_streams hok htime
  rw [← f3] at hres ⊢
  refine c84_events_partial o s solve fuel (rs.map Readout.chunk) (by simpa using hrs) f1 f2 hn0
    (by intro j hj; obtain ⟨k, hk⟩ := hcut j hj; exact ⟨k, by rw [hk, detectorFile, List.map_take]⟩) w h r hp hr hrange ?_ ?_
    neutron hres
  · intro hm
    rw [hm] at f3 htime
    rw [f3]
    exact trueReadouts_earlyG rs ⟨0, 0⟩ (by norm_num) htime
  · intro hm
    have h' := ht hm
    rw [hm] at f3
    rw [f3]
    exact h'

/-- Two chips; on each two neutrons, interleaved. -/
def exReadouts : List Readout :=
  [⟨0, [.clock 20000000, .trigger 20000100, .pixel 20000200 10 20 5 1, .pixel 20000201 100 20 7 2, .pixel 20000202 11 20 6 3,
      .pixel 20000201 100 21 8 4]⟩,
   ⟨1, [.pixel 20000900 50 60 5 1, .pixel 20000900 90 60 6 0, .pixel 20000901 50 61 5 1, .pixel 20000902 91 60 6 0]⟩]

example (m : Mode) : exReadouts ≠ [] ∧ (∀ r ∈ exReadouts, r.Ok) ∧ TimelyFile m ⟨0, 0⟩ exReadouts ∧
    List.Forall₂ (Resolved 75 5) (trueReadouts (needsClock m) ⟨0, 0⟩ exReadouts) [[0, 1, 0, 1], [0, 1, 0, 1]] ∧
    (∀ hs ∈ trueReadouts false ⟨0, 0⟩ exReadouts, ∀ x ∈ hs, ∃ t, x.tof = some t ∧ t.toNat < 2 ^ 22) ∧
    (detectorFile exReadouts).length ≤ hitsAndEvents.chunkSize := by
  refine ⟨by decide, ?_, ?_, ?_, ?_, by decide +kernel⟩
  · intro r hr
    simp only [exReadouts, List.mem_cons, List.not_mem_nil, or_false] at hr
    rcases hr with rfl | rfl
    · exact ⟨by decide, by decide +kernel, by decide +kernel⟩
    · exact ⟨by decide, by decide +kernel, by decide +kernel⟩
  · cases m <;> norm_num [TimelyFile, exReadouts, AllTimelyG, AllTimelyT, Signal.TimelyG, Signal.TimelyT, Past.after, PixelOk]
  · cases m <;> exact .cons (resolved_of (by decide +kernel)) (.cons (resolved_of (by decide +kernel)) .nil)
  · have h : ∀ hs ∈ trueReadouts false ⟨0, 0⟩ exReadouts, ∀ x ∈ hs, x.tof ≠ none ∧ (x.tof.getD 0).toNat < 2 ^ 22 := by
      decide +kernel
    intro hs hh x hx
    obtain ⟨h1, h2⟩ := h hs hh x hx
    obtain ⟨t, ht⟩ := Option.ne_none_iff_exists'.mp h1
    rw [ht] at h2
    exact ⟨t, ht, h2⟩

/-- C93 is false for readouts with a disguised pixel: it is a pixel and is also taken for a header, so that the pixel after it is counted
twice. -/
theorem c93_false_disguise :
    PixelOk 10 20 5 8 ∧ (Signal.pixel (0x5054 * 2 ^ 14 + 5) 10 20 5 8).Disguised ∧
    (∃ w, mainCore hitsAndEvents plainSettings (fun _ => (.nan, .nan)) (fun _ => {}) 2
      (detectorFile [⟨0, [.trigger (0x5054 * 2 ^ 14), .pixel (0x5054 * 2 ^ 14 + 5) 10 20 5 8,
        .pixel (0x5054 * 2 ^ 14 + 6) 10 21 5 9]⟩]) = .ok (.finished w) ∧ w.totalHits = 3#64 ∧ w.totalNeutrons = 2#64) ∧
    (trueReadouts false ⟨0, 0⟩ [⟨0, [.trigger (0x5054 * 2 ^ 14), .pixel (0x5054 * 2 ^ 14 + 5) 10 20 5 8,
        .pixel (0x5054 * 2 ^ 14 + 6) 10 21 5 9]⟩]).flatten.length = 2 :=
  ⟨by norm_num [PixelOk], by decide +kernel,
    finished_of (P := fun w => w.totalHits = 3#64 ∧ w.totalNeutrons = 2#64) _ (by decide +kernel), by decide +kernel⟩

end Verif.Props
