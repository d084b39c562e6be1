import Verif.Spec.DisplayWindow
import Verif.Props.Display
import Verif.Props.DetectorDisplay
import Verif.Props.DbscanEvents

/-!
# C112: what the display program saves

Saving waits for the end of reading, and then the files hold the counts of the last file read.
-/

namespace Verif.Props

open Verif Verif.Spec

/-! ## Files of numbers -/

theorem lowFirst_eq (l : Bytes) : lowFirst l = leNat l := by
  induction l with
  | nil => rfl
  | cons b l ih => simp [lowFirst, leNat, ih]

theorem flatMap_length_const {α : Type} (f : Nat → List α) (n : Nat) (hf : ∀ i, (f i).length = n) (N : Nat) :
    ((List.range N).flatMap f).length = n * N := by
  induction N with
  | zero => simp
  | succ N ih => rw [List.range_succ, List.flatMap_append, List.length_append, ih]; simp [hf]; ring

theorem flatMap_slice {α : Type} (f : Nat → List α) (n : Nat) (hf : ∀ i, (f i).length = n) (N k : Nat) (hk : k < N) :
    (((List.range N).flatMap f).drop (n * k)).take n = f k := by
  obtain ⟨m, rfl⟩ := Nat.exists_eq_add_of_lt hk
  rw [Nat.add_assoc, List.range_add, List.flatMap_append, List.drop_append_of_le_length (by rw [flatMap_length_const f n hf]),
    List.drop_of_length_le (by rw [flatMap_length_const f n hf]), List.nil_append, Nat.add_comm m 1, List.range_add]
  rw [List.map_append, List.flatMap_append]
  have e : (List.flatMap f ((List.range 1).map fun x => k + x)) = f k := by simp
  rw [e, List.take_append_of_le_length (by rw [hf]), List.take_of_length_le (by rw [hf])]

theorem leNat_bytesOf (w : U64) : leNat (bytesOf w) = w.toNat := by
  have e : bytesOf w = [byteOf w 0, byteOf w 1, byteOf w 2, byteOf w 3, byteOf w 4, byteOf w 5, byteOf w 6, byteOf w 7] := rfl
  have hw := w.isLt
  rw [e]
  simp only [leNat, byteOf_toNat]
  omega

theorem leNat_four (w : U32) : leNat ((List.range 4).map (byteOf (w.setWidth 64))) = w.toNat := by
  have e : (List.range 4).map (byteOf (w.setWidth 64)) = [byteOf (w.setWidth 64) 0, byteOf (w.setWidth 64) 1, byteOf (w.setWidth 64) 2,
    byteOf (w.setWidth 64) 3] := rfl
  have hw := w.isLt
  have h2 : (w.setWidth 64).toNat = w.toNat := by rw [BitVec.toNat_setWidth]; exact Nat.mod_eq_of_lt (by omega)
  rw [e]
  simp only [leNat, byteOf_toNat, h2]
  omega

/-- The bits of a count stand for the count. -/
theorem binary64_count (n : Nat) (h : n < 2 ^ 53) : f64Bits (.fin n) < 2 ^ 64 ∧ binary64 (f64Bits (.fin n)) = n := by
  have h0 : ¬ ((n : ℚ) < 0) := by simp
  have ha : |(n : ℚ)| = n := abs_of_nonneg (by simp)
  have hfin : f64Bits (.fin n) = f64Magnitude n := by
    show f64Magnitude |(n : ℚ)| + (if (n : ℚ) < 0 then 2 ^ 63 else 0) = _
    rw [if_neg h0, ha, Nat.add_zero]
  rw [hfin]
  rcases Nat.eq_zero_or_pos n with rfl | hp
  · have : f64Magnitude ((0 : ℕ) : ℚ) = 0 := by
      unfold f64Magnitude
      rw [if_pos (by rw [Nat.cast_zero]; exact zpow_pos (by norm_num) _), Nat.cast_zero, zero_mul]
      rfl
    rw [this]
    simp [binary64]
  · obtain ⟨L, hL⟩ : ∃ L, L = Nat.log 2 n := ⟨_, rfl⟩
    have h1 : 2 ^ L ≤ n := hL ▸ Nat.pow_log_le_self 2 (by omega)
    have h2 : n < 2 ^ (L + 1) := hL ▸ Nat.lt_pow_succ_log_self (by omega) n
    have hL52 : L ≤ 52 := by
      by_contra hc
      have : 2 ^ 53 ≤ 2 ^ L := Nat.pow_le_pow_right (by omega) (by omega)
      omega
    have hlog : Int.log 2 (n : ℚ) = (L : ℤ) := by rw [Int.log_natCast, hL]
    obtain ⟨d, hd⟩ := Nat.exists_eq_add_of_le h1
    obtain ⟨e, he⟩ := Nat.exists_eq_add_of_le hL52
    have hdlt : d < 2 ^ L := by rw [pow_succ] at h2; omega
    have hfr : d * 2 ^ e < 2 ^ 52 := by
      rw [he, pow_add]
      exact Nat.mul_lt_mul_of_pos_right hdlt (by positivity)
    have hm : f64Magnitude (n : ℚ) = (L + 1023) * 2 ^ 52 + d * 2 ^ e := by
      unfold f64Magnitude
      have hn1 : ¬ ((n : ℚ) < 2 ^ (-1022 : ℤ)) := by
        have k1 : (2 : ℚ) ^ (-1022 : ℤ) ≤ 1 := zpow_le_one_of_nonpos₀ (by norm_num) (by norm_num)
        have k2 : (1 : ℚ) ≤ n := by exact_mod_cast hp
        exact not_lt.mpr (k1.trans k2)
      rw [if_neg hn1, hlog]
      have e1 : ((L : ℤ) + 1023).toNat = L + 1023 := by omega
      have e2 : (((n : ℚ) / 2 ^ (L : ℤ) - 1) * 2 ^ 52) = ((d * 2 ^ e : ℕ) : ℚ) := by
        have hpos : (2 : ℚ) ^ L ≠ 0 := by positivity
        have h52 : (2 : ℚ) ^ 52 = 2 ^ L * 2 ^ e := by rw [← pow_add, ← he]
        rw [zpow_natCast, hd, h52]
        push_cast
        field_simp
        ring
      rw [e1, e2, ← Int.cast_natCast (R := ℚ), Rat.floor_intCast]
      rfl
    rw [hm]
    have hb : ((L + 1023) * 2 ^ 52 + d * 2 ^ e) / 2 ^ 52 = L + 1023 := by
      rw [Nat.add_comm, Nat.add_mul_div_right _ _ (by positivity), Nat.div_eq_of_lt hfr, Nat.zero_add]
    have hmod : ((L + 1023) * 2 ^ 52 + d * 2 ^ e) % 2 ^ 52 = d * 2 ^ e := by
      rw [Nat.add_comm, Nat.add_mul_mod_self_right, Nat.mod_eq_of_lt hfr]
    have hlt : (L + 1023) * 2 ^ 52 + d * 2 ^ e < 2 ^ 63 := by
      generalize d * 2 ^ e = f at hfr
      omega
    refine ⟨by omega, ?_⟩
    unfold binary64
    rw [hb, hmod, if_neg (by rw [Nat.div_eq_of_lt hlt]; omega), if_neg (by omega), Nat.mod_eq_of_lt (by omega : L + 1023 < 2048), one_mul]
    have e3 : ((L + 1023 : ℕ) - 1075 : ℤ) = -(e : ℤ) := by omega
    rw [e3, zpow_neg, zpow_natCast, hd]
    have hpos : (2 : ℚ) ^ e ≠ 0 := by positivity
    rw [he, pow_add]
    push_cast
    field_simp

theorem foldl_add_one {α : Type} (l : List α) (n : Nat) (h : n + l.length ≤ 2 ^ 53) :
    l.foldl (fun v _ => F64.add v (.fin 1)) (.fin (n : ℚ)) = .fin ((n + l.length : ℕ) : ℚ) := by
  induction l generalizing n with
  | nil => simp
  | cons a l ih =>
    rw [List.length_cons] at h
    have e : F64.add (.fin (n : ℚ)) (.fin 1) = .fin ((n + 1 : ℕ) : ℚ) := by
      have := add_int' (a := n) (b := 1) (by rw [abs_of_nonneg (by omega)]; omega)
      simpa using this
    rw [List.foldl_cons, e, ih _ (by omega), List.length_cons]
    congr 2
    omega

theorem pictureCell_count (shown : List (Int × Int)) (x y : Nat) (h : shown.count ((x : Int), (y : Int)) ≤ 2 ^ 53) :
    pictureCell shown x y = .fin (shown.count ((x : Int), (y : Int)) : ℕ) := by
  have e : (shown.filter fun p => p = ((x : Int), (y : Int))).length = shown.count ((x : Int), (y : Int)) := by
    rw [List.count, List.countP_eq_length_filter]
    exact congrArg List.length (List.filter_congr fun p _ => by simp [beq_eq_decide])
  unfold pictureCell
  have := foldl_add_one (shown.filter fun p => p = ((x : Int), (y : Int))) 0 (by rw [e]; omega)
  rw [e] at this
  simpa using this

theorem picture_ok (shown : List (Int × Int)) (h : shown.length < 2 ^ 53) : IsPictureOf (pictureBytes shown) shown := by
  have hl : ∀ k, (bytesOf (BitVec.ofNat 64 (f64Bits (swappedCell shown k)))).length = 8 := fun k => bytesOf_length _
  refine ⟨flatMap_length_const _ 8 hl _, fun x y hx hy => ?_⟩
  have hc := List.count_le_length (a := ((x : Int), (y : Int))) (l := shown)
  obtain ⟨b1, b2⟩ := binary64_count (shown.count ((x : Int), (y : Int))) (by omega)
  have e1 : (4096 * x + y) / 4096 = x := by omega
  have e2 : (4096 * x + y) % 4096 = y := by omega
  unfold doubleAt pictureBytes
  rw [flatMap_slice _ 8 hl _ _ (by omega : 4096 * x + y < 4096 * 4096), lowFirst_eq, leNat_bytesOf, BitVec.toNat_ofNat]
  unfold swappedCell
  rw [e1, e2, pictureCell_count shown x y (by omega), Nat.mod_eq_of_lt b1, b2]

theorem spectrum_ok (tofs : List Int) : IsSpectrumOf (spectrumBytes tofs) tofs := by
  have hl : ∀ k, ((List.range 4).map (byteOf ((spectrumCell tofs k).setWidth 64))).length = 4 := fun k => by simp
  refine ⟨flatMap_length_const _ 4 hl _, fun i hi => ?_⟩
  unfold word32At spectrumBytes
  rw [flatMap_slice _ 4 hl _ _ hi, lowFirst_eq, leNat_four]
  unfold spectrumCell
  rw [BitVec.toNat_ofNat]

/-! ## The window -/

theorem clusterDone_step {α : Type} (hits : List α) (s : Ring α) (a : RingActor) (h : s.clusterDone = true → s.cons = .exited) :
    (s.step hits a).clusterDone = true → (s.step hits a).cons = .exited := by
  obtain ⟨slots, pi, ci, next, prod, cons, got, fd, cd, kill⟩ := s
  simp only at h
  cases a with
  | producer =>
    unfold Ring.step Ring.producerStep
    cases prod with
    | wait =>
      simp only
      match hits[next]? with
      | none => exact h
      | some x => simp only; split_ifs <;> exact h
    | check => simp only; split_ifs <;> exact h
    | copy =>
      simp only
      match hits[next]? with
      | none => exact h
      | some x => exact h
    | publish => exact h
    | done => exact h
  | consumer =>
    unfold Ring.step Ring.consumerStep
    cases cons with
    | outer => simp only; split_ifs <;> simp_all
    | inner => simp only; split_ifs <;> simp_all
    | use => simp_all
    | advance => simp_all
    | exited => exact h
  | timer =>
    unfold Ring.step Ring.timerStep
    simp only
    split_ifs <;> exact h

/-- What holds from the moment a file has been chosen. -/
structure Reading (p : ParseState) (s : DisplayWindow) (r : Ring DisplayHit) : Prop where
  last : s.last = some (p, r)
  inv : RingInv p.hits r
  ended : r.clusterDone = true → r.cons = .exited
  stopped : s.timer = false → r.fileDone = true ∧ r.clusterDone = true ∧ r.kill = true

theorem reading_act (p : ParseState) (s : DisplayWindow) (r : Ring DisplayHit) (h : Reading p s r) (a : RingActor) :
    Reading p (s.act a) (r.step p.hits a) ∧ (s.act a).files = s.files := by
  obtain ⟨last, timer, files⟩ := s
  obtain ⟨h1, h2, h3, h4⟩ := h
  simp only at h1 h4
  subst h1
  have hle := ringLe_step p.hits r a
  have hi := ringInv_step p.hits r h2 a
  have hc := clusterDone_step p.hits r a h3
  have key : a ≠ .timer → Reading p ⟨some (p, r.step p.hits a), timer, files⟩ (r.step p.hits a) := by
    intro ha
    refine ⟨rfl, hi, hc, fun ht => ?_⟩
    obtain ⟨k1, k2, k3⟩ := h4 ht
    refine ⟨hle.file k1, ?_, hle.kill k3⟩
    have hex := h3 k2
    cases a with
    | producer =>
      have hd := h2.flag k1
      simp only [Ring.step, Ring.producerStep, hd]
      exact k2
    | consumer =>
      simp only [Ring.step, Ring.consumerStep, hex]
      exact k2
    | timer => exact absurd rfl ha
  cases a with
  | producer => exact ⟨key (by simp), rfl⟩
  | consumer => exact ⟨key (by simp), rfl⟩
  | timer =>
    cases timer with
    | false =>
      obtain ⟨k1, k2, k3⟩ := h4 rfl
      have e : r.step p.hits .timer = r := by
        obtain ⟨slots, pi, ci, next, prod, cons, got, fd, cd, kill⟩ := r
        simp only at k1 k3
        subst k1 k3
        rfl
      rw [e]
      exact ⟨⟨rfl, h2, h3, fun _ => ⟨k1, k2, k3⟩⟩, rfl⟩
    | true =>
      refine ⟨⟨rfl, hi, hc, fun ht => ?_⟩, rfl⟩
      have ht : (!(r.fileDone && r.clusterDone)) = false := ht
      have k : r.fileDone = true ∧ r.clusterDone = true := by simpa using ht
      refine ⟨hle.file k.1, ?_, ?_⟩
      · simp only [Ring.step, Ring.timerStep, k.1, if_true]; exact k.2
      · simp only [Ring.step, Ring.timerStep, k.1, if_true]

theorem reading_acts (p : ParseState) (s : DisplayWindow) (r : Ring DisplayHit) (h : Reading p s r) (as : List RingActor) :
    Reading p (as.foldl DisplayWindow.act s) (as.foldl (Ring.step p.hits) r) ∧ (as.foldl DisplayWindow.act s).files = s.files := by
  induction as generalizing s r with
  | nil => exact ⟨h, rfl⟩
  | cons a as ih =>
    obtain ⟨k1, k2⟩ := reading_act p s r h a
    obtain ⟨m1, m2⟩ := ih _ _ k1
    exact ⟨m1, m2.trans k2⟩

theorem run_acts (env : SaveEnv) (cos sin : F64) (s : DisplayWindow) (as : List RingActor) :
    s.run env cos sin (as.map .act) = .ok (as.foldl DisplayWindow.act s) := by
  induction as generalizing s with
  | nil => rfl
  | cons a as ih => exact ih _

theorem reading_start (p : ParseState) (s : DisplayWindow) (junk : Nat → DisplayHit) :
    Reading p { s with last := some (p, Ring.init junk), timer := true } (Ring.init junk) :=
  ⟨rfl, ringInv_init _ _, by simp [Ring.init], by simp⟩

theorem step_read (env : SaveEnv) (cos sin : F64) (s : DisplayWindow) (hs : s.timer = false) (file : Bytes) (p : ParseState)
    (hp : fileToHits file = .ok p) (junk : Nat → DisplayHit) :
    s.step env cos sin (.read (some (some file)) junk) = .ok { s with last := some (p, Ring.init junk), timer := true } := by
  show (if s.timer then Res.ok s else (fileToHits file).bind fun p => .ok { s with last := some (p, Ring.init junk), timer := true }) = _
  rw [hs, hp]
  rfl

/-- A file is read: the state after the choice and some steps of the threads and the timer. -/
theorem run_read (env : SaveEnv) (cos sin : F64) (s t : DisplayWindow) (hs : s.timer = false) (file : Bytes) (p : ParseState)
    (hp : fileToHits file = .ok p) (junk : Nat → DisplayHit) (as : List RingActor)
    (hr : s.run env cos sin (.read (some (some file)) junk :: as.map .act) = .ok t) :
    Reading p t (as.foldl (Ring.step p.hits) (Ring.init junk)) ∧ t.files = s.files := by
  have e := step_read env cos sin s hs file p hp junk
  unfold DisplayWindow.run at hr
  rw [e] at hr
  change DisplayWindow.run env cos sin _ _ = _ at hr
  rw [run_acts, Res.ok.injEq] at hr
  rw [← hr]
  exact reading_acts p _ _ (reading_start p s junk) as

/-- C112: while a file is read, neither button does anything. -/
theorem c112_busy (env : SaveEnv) (cos sin : F64) (s : DisplayWindow) (h : s.timer = true) (c : Option (Option Bytes))
    (junk : Nat → DisplayHit) (p t : Option Path) :
    s.step env cos sin (.read c junk) = .ok s ∧ s.step env cos sin (.save p t) = .ok s := by
  constructor
  · show s.read c junk = _
    unfold DisplayWindow.read
    rw [h]; rfl
  · show s.save env cos sin p t = _
    unfold DisplayWindow.save
    rw [h]; rfl

/-- C112: once the timer has stopped, both threads have ended and nothing changes any more what they have counted. -/
theorem c112_at_rest (env : SaveEnv) (cos sin : F64) (s t : DisplayWindow) (hs : s.timer = false) (file : Bytes) (p : ParseState)
    (hp : fileToHits file = .ok p) (junk : Nat → DisplayHit) (as : List RingActor)
    (hr : s.run env cos sin (.read (some (some file)) junk :: as.map .act) = .ok t) (ht : t.timer = false) :
    (∃ r, t.last = some (p, r) ∧ r.prod = .done ∧ r.cons = .exited ∧ r.got <+: p.hits) ∧ ∀ a, t.act a = t := by
  obtain ⟨h, -⟩ := run_read env cos sin s t hs file p hp junk as hr
  generalize as.foldl (Ring.step p.hits) (Ring.init junk) = r at h
  obtain ⟨k1, k2, k3⟩ := h.stopped ht
  have hd := h.inv.flag k1
  have hx := h.ended k2
  refine ⟨⟨r, h.last, hd, hx, h.inv.got ▸ List.take_prefix _ _⟩, fun a => ?_⟩
  obtain ⟨last, timer, files⟩ := t
  have hl := h.last
  simp only at hl ht
  subst hl ht
  cases a with
  | producer =>
    show DisplayWindow.mk (some (p, r.producerStep p.hits)) _ _ = _
    unfold Ring.producerStep
    rw [hd]
  | consumer =>
    show DisplayWindow.mk (some (p, r.consumerStep)) _ _ = _
    unfold Ring.consumerStep
    rw [hx]
  | timer => rfl

theorem foldl_run {α : Type} (hits : List α) (s : Ring α) (sched : Nat → RingActor) (n : Nat) :
    ((List.range n).map sched).foldl (Ring.step hits) s = s.run hits sched n := by
  induction n with
  | zero => rfl
  | succ n ih => rw [List.range_succ, List.map_append, List.foldl_append, ih]; rfl

/-- C112: if the threads and the timer all get their turns again and again, the timer stops. -/
theorem c112_ready (env : SaveEnv) (cos sin : F64) (s : DisplayWindow) (hs : s.timer = false) (file : Bytes) (p : ParseState)
    (hp : fileToHits file = .ok p) (junk : Nat → DisplayHit) (sched : Nat → RingActor) (hf : ∀ a n, ∃ m, n ≤ m ∧ sched m = a) :
    ∃ n t, s.run env cos sin (.read (some (some file)) junk :: ((List.range n).map sched).map .act) = .ok t ∧ t.timer = false := by
  obtain ⟨n, h1, -, h2⟩ := c54_terminates p.hits junk sched hf
  obtain ⟨m, hm, ha⟩ := hf .timer n
  have e := step_read env cos sin s hs file p hp junk
  have hrun : ∀ k, s.run env cos sin (.read (some (some file)) junk :: ((List.range k).map sched).map .act) =
      .ok (((List.range k).map sched).foldl DisplayWindow.act { s with last := some (p, Ring.init junk), timer := true }) := by
    intro k
    unfold DisplayWindow.run
    rw [e]
    exact run_acts _ _ _ _ _
  refine ⟨m + 1, _, hrun (m + 1), ?_⟩
  obtain ⟨h, -⟩ := run_read env cos sin s _ hs file p hp junk _ (hrun m)
  rw [foldl_run] at h
  have hfd := (ringLe_run p.hits (Ring.init junk) sched n m hm).file h1
  have hcd : ((Ring.init junk).run p.hits sched m).clusterDone = true := by
    have hx : ((Ring.init junk).run p.hits sched n).cons = .exited := by
      have : ∀ k, ((Ring.init junk).run p.hits sched k).clusterDone = true → ((Ring.init junk).run p.hits sched k).cons = .exited := by
        intro k
        induction k with
        | zero => simp [Ring.run, Ring.init]
        | succ k ih => exact clusterDone_step _ _ _ ih
      exact this n h2
    exact (exited_run p.hits junk sched m ((ringLe_run p.hits (Ring.init junk) sched n m hm).exited hx).1).2
  rw [List.range_succ, List.map_append, List.foldl_append]
  generalize ((List.range m).map sched).foldl DisplayWindow.act { s with last := some (p, Ring.init junk), timer := true } = t at h
  generalize (Ring.init junk).run p.hits sched m = r at *
  show (t.act (sched m)).timer = false
  rw [ha]
  obtain ⟨last, timer, files⟩ := t
  have hl := h.last
  simp only at hl
  subst hl
  cases timer with
  | false => rfl
  | true => show (!(r.fileDone && r.clusterDone)) = false; rw [hfd, hcd]; rfl

/-- Enough room for both files. -/
def Roomy (env : SaveEnv) (p : Path) : Prop := env.opens p = true ∧ 8 * (4096 * 4096) ≤ env.room p

theorem write_some (env : SaveEnv) (files : Path → Option SavedFile) (p : Path) (b : Bytes) (h : env.opens p = true)
    (hr : b.length ≤ env.room p) :
    DisplayWindow.write env files (some p) (.bytes b) = .ok (Function.update files p (some (.bytes b))) := by
  unfold DisplayWindow.write
  simp only
  rw [if_pos h, List.take_of_length_le hr]

/-- What is saved, from the state of the threads. -/
theorem save_ok (env : SaveEnv) (cos sin : F64) (t : DisplayWindow) (p : ParseState) (r : Ring DisplayHit) (hl : t.last = some (p, r))
    (ht : t.timer = false) (w : HitWorker) (hw : HitWorker.init.run cos sin r.got = .ok w) (P T : Path) (hne : P ≠ T)
    (hP : Roomy env P) (hT : Roomy env T) :
    ∃ u f g, t.step env cos sin (.save (some P) (some T)) = .ok u ∧ u.files P = some (.bytes f) ∧ u.files T = some (.bytes g) ∧
      (∀ Q, Q ≠ P → Q ≠ T → u.files Q = t.files Q) ∧ (w.shown.length < 2 ^ 53 → IsPictureOf f w.shown) ∧ IsSpectrumOf g p.tofs := by
  obtain ⟨last, timer, files⟩ := t
  simp only at hl ht
  subst hl ht
  have l1 : (pictureBytes w.shown).length = 8 * (4096 * 4096) := flatMap_length_const _ 8 (fun k => bytesOf_length _) _
  have l2 : (spectrumBytes p.tofs).length = 4 * 170000 := (spectrum_ok p.tofs).1
  obtain ⟨o1, r1⟩ := hP
  obtain ⟨o2, r2⟩ := hT
  refine ⟨⟨some (p, r), false, Function.update (Function.update files P (some (.bytes (pictureBytes w.shown)))) T
    (some (.bytes (spectrumBytes p.tofs)))⟩, pictureBytes w.shown, spectrumBytes p.tofs, ?_, ?_, ?_, ?_, picture_ok w.shown, spectrum_ok p.tofs⟩
  · show ((HitWorker.init.run cos sin r.got) >>= fun w => DisplayWindow.write env files (some P) (.bytes (pictureBytes w.shown)) >>= fun f =>
      DisplayWindow.write env f (some T) (.bytes (spectrumBytes p.tofs)) >>= fun f => Pure.pure (DisplayWindow.mk (some (p, r)) false f)) = _
    rw [hw]
    show (DisplayWindow.write env files (some P) (.bytes (pictureBytes w.shown)) >>= fun f =>
      DisplayWindow.write env f (some T) (.bytes (spectrumBytes p.tofs)) >>= fun f => Pure.pure (DisplayWindow.mk (some (p, r)) false f)) = _
    rw [write_some env _ P _ o1 (by rw [l1]; exact r1)]
    show (DisplayWindow.write env (Function.update files P (some (.bytes (pictureBytes w.shown)))) (some T) (.bytes (spectrumBytes p.tofs)) >>= fun f =>
      Pure.pure (DisplayWindow.mk (some (p, r)) false f)) = _
    rw [write_some env _ T _ o2 (by rw [l2]; omega)]
    rfl
  · show Function.update (Function.update files P _) T _ P = _
    rw [Function.update_of_ne hne, Function.update_self]
  · show Function.update (Function.update files P _) T _ T = _
    rw [Function.update_self]
  · intro Q h1 h2
    show Function.update (Function.update files P _) T _ Q = _
    rw [Function.update_of_ne h2, Function.update_of_ne h1]

/-- C112: what is saved once a file has been read: of the hits that came through, which are the first ones of the file, the places
shown, and of all hits of the file the times.  Nothing of what was counted before is left, and no other file is touched. -/
theorem c112_saved (env : SaveEnv) (cos sin : F64) (s t u : DisplayWindow) (hs : s.timer = false) (file : Bytes) (p : ParseState)
    (hp : fileToHits file = .ok p) (junk : Nat → DisplayHit) (as : List RingActor)
    (hr : s.run env cos sin (.read (some (some file)) junk :: as.map .act) = .ok t) (ht : t.timer = false)
    (P T : Path) (hne : P ≠ T) (hP : Roomy env P) (hT : Roomy env T)
    (hu : t.step env cos sin (.save (some P) (some T)) = .ok u) :
    ∃ got w f g, got <+: p.hits ∧ HitWorker.init.run cos sin got = .ok w ∧ u.files P = some (.bytes f) ∧ u.files T = some (.bytes g) ∧
      (∀ Q, Q ≠ P → Q ≠ T → u.files Q = s.files Q) ∧ (w.shown.length < 2 ^ 53 → IsPictureOf f w.shown) ∧ IsSpectrumOf g p.tofs := by
  obtain ⟨h, hfs⟩ := run_read env cos sin s t hs file p hp junk as hr
  generalize as.foldl (Ring.step p.hits) (Ring.init junk) = r at h
  cases hw : HitWorker.init.run cos sin r.got with
  | ok w =>
    obtain ⟨u', f, g, k1, k2, k3, k4, k5, k6⟩ := save_ok env cos sin t p r h.last ht w hw P T hne hP hT
    rw [k1, Res.ok.injEq] at hu
    subst hu
    exact ⟨r.got, w, f, g, h.inv.got ▸ List.take_prefix _ _, hw, k2, k3, fun Q a b => (k4 Q a b).trans (congrFun hfs Q), k5, k6⟩
  | _ =>
    obtain ⟨last, timer, files⟩ := t
    have hl := h.last
    simp only at hl ht
    subst hl ht
    change ((HitWorker.init.run cos sin r.got) >>= fun w => DisplayWindow.write env files (some P) (.bytes (pictureBytes w.shown)) >>= fun f =>
      DisplayWindow.write env f (some T) (.bytes (spectrumBytes p.tofs)) >>= fun f => Pure.pure (DisplayWindow.mk (some (p, r)) false f)) = _ at hu
    rw [hw] at hu
    cases hu

/-! ## The files of a detector -/

theorem tof100_pixel {T t col row tot ftoa : Nat} (hok : PixelOk col row tot ftoa) (h1 : T ≤ t) (h2 : t / 2 ^ 30 = T / 2 ^ 30) (chip : Int) :
    countedAt (T % 2 ^ 30, chip, pixelWord t col row tot ftoa) =
      if (t - T) / 4 < 170000 ∧ 250 < col ∧ 125 < row then [(((t - T) / 4 : Nat) : Int)] else [] := by
  obtain ⟨-, -, -, f4, -⟩ := pixelWord_fields (t := t) hok
  have hw := pixelWord_toNat (t := t) hok
  obtain ⟨b1, b2, b3, b4⟩ := hok
  have e1 : chipX (pixelWord t col row tot ftoa) = col ∧ chipY (pixelWord t col row tot ftoa) = row := by
    have ha := address_lt b1 b2
    unfold chipX chipY field
    rw [hw]
    unfold pixelAddress at ha ⊢
    have : t / 2 ^ 14 % 2 ^ 16 < 2 ^ 16 := Nat.mod_lt _ (by norm_num)
    have : t % 2 ^ 14 < 2 ^ 14 := Nat.mod_lt _ (by norm_num)
    generalize t / 2 ^ 14 % 2 ^ 16 = m at *
    generalize t % 2 ^ 14 = m' at *
    constructor <;> omega
  have e2 : tof100 (T % 2 ^ 30) (pixelWord t col row tot ftoa) = (t - T) / 4 := by
    unfold tof100
    rw [f4]
    omega
  unfold countedAt
  simp only [e1.1, e1.2, e2]
  have : (250 < col ∧ col < 425 ∧ 125 < row ∧ row < 325) ↔ (250 < col ∧ 125 < row) := by omega
  simp only [this]

theorem signals_counted (chip : Int) (sigs : List Signal) (p : Past) (hs : AllTimelyD p sigs) (ps : List (Int × U64)) :
    (dated (p.trigger % 2 ^ 30) ((sigs.flatMap Signal.packets).map (fun w => (chip, w)) ++ ps)).flatMap countedAt =
      spectrumTimes p sigs ++ (dated ((sigs.foldl Past.after p).trigger % 2 ^ 30) ps).flatMap countedAt := by
  induction sigs generalizing p with
  | nil => rfl
  | cons s ss ih =>
    obtain ⟨h1, h2⟩ := hs
    rw [List.flatMap_cons, List.map_append, List.append_assoc]
    cases s with
    | trigger u =>
      obtain ⟨f1, f2, -⟩ := triggerWord_fields u
      rw [packets_trigger]
      simp only [List.map_cons, List.map_nil, List.cons_append, List.nil_append, dated, if_neg f2, if_pos f1, triggerWord_low]
      exact ih (p.after (.trigger u)) h2
    | clock u =>
      obtain ⟨-, f2, f3, -⟩ := clockLow_fields u
      obtain ⟨-, g2, g3, -⟩ := clockHigh_fields u
      rw [packets_clock]
      simp only [List.map_cons, List.map_nil, List.cons_append, List.nil_append, dated, if_neg f2, if_neg f3, if_neg g2, if_neg g3]
      exact ih (p.after (.clock u)) h2
    | pixel u col row tot ftoa =>
      obtain ⟨hok, t1, t2⟩ := h1
      obtain ⟨f1, -⟩ := pixelWord_fields (t := u) hok
      rw [packets_pixel]
      simp only [List.map_cons, List.map_nil, List.cons_append, List.nil_append, dated, if_pos f1, List.flatMap_cons]
      rw [tof100_pixel hok t1 t2, spectrumTimes, List.append_assoc]
      exact congrArg _ (ih (p.after (.pixel u col row tot ftoa)) h2)

theorem spectrumTimes_append (p : Past) (l l' : List Signal) :
    spectrumTimes p (l ++ l') = spectrumTimes p l ++ spectrumTimes (l.foldl Past.after p) l' := by
  induction l generalizing p with
  | nil => rfl
  | cons s l ih =>
    cases s with
    | trigger u => exact ih _
    | clock u => exact ih _
    | pixel u col row tot ftoa =>
      simp only [List.cons_append, spectrumTimes, List.foldl_cons, List.append_assoc]
      rw [ih]
      rfl

theorem readouts_counted (rs : List Readout) (hok : ∀ r ∈ rs, r.Ok) (p : Past) (hs : AllTimelyD p (rs.flatMap Readout.signals)) :
    (dated (p.trigger % 2 ^ 30) (chunkPackets (rs.map Readout.chunk))).flatMap countedAt = spectrumTimes p (rs.flatMap Readout.signals) := by
  induction rs generalizing p with
  | nil => rfl
  | cons r rs ih =>
    rw [List.flatMap_cons, allTimelyD_append] at hs
    obtain ⟨-, hc⟩ := readout_header (hok r (by simp))
    have e1 : chunkPackets ((r :: rs).map Readout.chunk) =
        (r.signals.flatMap Signal.packets).map (fun w => ((r.chip : Int), w)) ++ chunkPackets (rs.map Readout.chunk) := by
      rw [List.map_cons, chunkPackets_cons, hc]; rfl
    rw [e1, signals_counted _ _ _ hs.1, ih (fun r' h' => hok r' (by simp [h'])) _ hs.2, List.flatMap_cons, spectrumTimes_append]

/-- What the program reads of a detector: the hits and the times of the spectrum. -/
theorem detector_parsed (rs : List Readout) (hok : ∀ r ∈ rs, r.Ok ∧ r.Short) (hs : AllTimelyD ⟨0, 0⟩ (rs.flatMap Readout.signals)) :
    ∃ s, fileToHits (detectorFile rs) = .ok s ∧ s.hits = pictureReadouts ⟨0, 0⟩ rs ∧
      s.tofs = spectrumTimes ⟨0, 0⟩ (rs.flatMap Readout.signals) := by
  have hsig := signalOk_of_timelyD hs
  obtain ⟨s, h1, h2⟩ := c103_hits_partial rs hok hs
  obtain ⟨s', k1, k2, -⟩ := c66_counts_partial (rs.map Readout.chunk)
    (by simp only [List.mem_map]; rintro c ⟨r, hr, rfl⟩; exact (readout_header (hok r hr).1).1)
    (by
      simp only [List.mem_map]; rintro c ⟨r, hr, rfl⟩
      exact readout_noLookAlike (hok r hr).1 fun s hs => hsig s (List.mem_flatMap.mpr ⟨r, hr, hs⟩))
  have e : Res.ok s' = Res.ok s := k1.symm.trans h1
  rw [Res.ok.injEq] at e
  subst e
  refine ⟨s', h1, h2, ?_⟩
  rw [k2, shownPackets_all _ (by simp only [List.mem_map]; rintro c ⟨r, hr, rfl⟩; exact (hok r hr).2)]
  exact readouts_counted rs (fun r hr => (hok r hr).1) ⟨0, 0⟩ hs

/-- C112: the files saved of a detector.  The two threads and the timer get turns again and again, and the timer stops the second thread
only after it has taken all hits; then the button becomes ready, and the picture holds the neutrons of more than ten pixels but for
the last 127, where they are, and the spectrum the true times of flight in the corners of the chips. -/
theorem c112_detector_partial (rs : List Readout) (hok : ∀ r ∈ rs, r.Ok ∧ r.Short) (hs : AllTimelyD ⟨0, 0⟩ (rs.flatMap Readout.signals))
    (hl : Lit (rs.flatMap Readout.signals)) (gs : List (List DisplayHit)) (hn : NeutronHits (pictureReadouts ⟨0, 0⟩ rs) gs)
    (hsz : ∀ g ∈ gs, g.length ≤ 4108) (hmany : gs.length < 2 ^ 53) (cs sn : ℚ) (hcs : |cs| ≤ 1) (hsn : |sn| ≤ 1) (env : SaveEnv)
    (s : DisplayWindow) (hidle : s.timer = false) (junk : Nat → DisplayHit) (sched : Nat → RingActor)
    (hf : ∀ a n, ∃ m, n ≤ m ∧ sched m = a)
    (hlate : ∀ n, sched n = .timer → ((Ring.init junk).run (pictureReadouts ⟨0, 0⟩ rs) sched n).fileDone = true →
      ((Ring.init junk).run (pictureReadouts ⟨0, 0⟩ rs) sched n).got.length = (pictureReadouts ⟨0, 0⟩ rs).length)
    (P T : Path) (hne : P ≠ T) (hP : Roomy env P) (hT : Roomy env T) :
    ∃ n u f g ls, s.run env (.fin cs) (.fin sn) (.read (some (some (detectorFile rs))) junk :: ((List.range n).map sched).map .act ++
        [.save (some P) (some T)]) = .ok u ∧ u.files P = some (.bytes f) ∧ u.files T = some (.bytes g) ∧
      (∀ Q, Q ≠ P → Q ≠ T → u.files Q = s.files Q) ∧ List.Forall₂ (ShownAt cs sn) (shownNeutrons gs) ls ∧ IsPictureOf f ls.flatten ∧
      IsSpectrumOf g (spectrumTimes ⟨0, 0⟩ (rs.flatMap Readout.signals)) := by
  obtain ⟨p, p1, p2, p3⟩ := detector_parsed rs hok hs
  rw [← p2] at hlate hn
  obtain ⟨n₀, hgot⟩ := c54_delivered_partial p.hits junk sched (hf .producer) (hf .consumer) hlate
  obtain ⟨n, t, h1, h2⟩ := c112_ready env (.fin cs) (.fin sn) s hidle (detectorFile rs) p p1 junk sched hf
  obtain ⟨h, hfs⟩ := run_read env _ _ s t hidle _ p p1 junk _ h1
  rw [foldl_run] at h
  have hall : ((Ring.init junk).run p.hits sched n).got = p.hits := by
    have hx := h.ended (h.stopped h2).2.1
    have := ((ringLe_run p.hits (Ring.init junk) sched n (n + n₀) (by omega)).exited hx).2
    rw [← this, hgot (n + n₀) (by omega)]
  obtain ⟨w, w1, -, -, ls, w4, w5⟩ := c103_worker_partial cs sn hcs hsn p.hits gs (by rw [p2]; exact pictureReadouts_pixel rs _ hs hl) hn hsz
  obtain ⟨u, f, g, k1, k2, k3, k4, k5, k6⟩ := save_ok env _ _ t p _ h.last h2 w (by rw [hall]; exact w1) P T hne hP hT
  have hlen : w.shown.length ≤ (shownNeutrons gs).length := by
    rw [w5]
    clear w5 k5 hlate hgot
    generalize shownNeutrons gs = gs' at w4
    induction w4 with
    | nil => simp
    | @cons g l gs' ls hgl _ ih =>
      rw [List.flatten_cons, List.length_append, List.length_cons]
      rcases hgl.1 with rfl | ⟨p, rfl, -⟩ <;> simp only [List.length_nil, List.length_singleton] <;> omega
  have hle : (shownNeutrons gs).length ≤ gs.length := by
    unfold shownNeutrons
    exact (List.length_filter_le _ _).trans (by rw [List.length_take]; omega)
  refine ⟨n, u, f, g, ls, ?_, k2, k3, fun Q a b => (k4 Q a b).trans (congrFun hfs Q), w4, ?_, p3 ▸ k6⟩
  · have happ : ∀ (es es' : List WindowEvent) (s t : DisplayWindow), s.run env (.fin cs) (.fin sn) es = .ok t →
        s.run env (.fin cs) (.fin sn) (es ++ es') = t.run env (.fin cs) (.fin sn) es' := by
      intro es es' s t
      induction es generalizing s with
      | nil => intro h; rw [DisplayWindow.run, Res.ok.injEq] at h; rw [h]; rfl
      | cons e es ih =>
        intro h
        rw [List.cons_append]
        rw [DisplayWindow.run] at h ⊢
        cases hst : s.step env (.fin cs) (.fin sn) e with
        | ok s' => rw [hst] at h; exact ih s' h
        | _ => rw [hst] at h; cases h
    rw [happ _ _ _ _ h1, DisplayWindow.run, k1]
    rfl
  · rw [← w5]; exact k5 (by omega)

/-! ## What goes wrong -/

/-- C112 fails before the first reading: the spectrum that is saved was never set. -/
theorem c112_false_unread (env : SaveEnv) (cos sin : F64) (files : Path → Option SavedFile) (T : Path) (h : env.opens T = true) :
    ∃ u, (DisplayWindow.init files).step env cos sin (.save none (some T)) = .ok u ∧ u.files T = some .indeterminate := by
  refine ⟨⟨none, false, Function.update files T (some .indeterminate)⟩, ?_, Function.update_self ..⟩
  show (DisplayWindow.write env files (some T) .indeterminate >>= fun f => Pure.pure (DisplayWindow.mk none false f)) = _
  unfold DisplayWindow.write
  simp only
  rw [if_pos h]
  rfl

/-- C112 fails for a name that cannot be opened for writing: undefined behaviour. -/
theorem c112_false_unopened (env : SaveEnv) (cos sin : F64) (files : Path → Option SavedFile) (P : Path) (T : Option Path)
    (h : env.opens P = false) : (DisplayWindow.init files).step env cos sin (.save (some P) T) = .ub .oobWrite := by
  show (DisplayWindow.write env files (some P) (.bytes (pictureBytes [])) >>= fun f =>
    DisplayWindow.write env f T .indeterminate >>= fun f => Pure.pure (DisplayWindow.mk none false f)) = _
  unfold DisplayWindow.write
  simp only
  rw [if_neg (by rw [h]; simp)]
  rfl

/-- C112 fails when the disk is full: the picture is cut short, and nothing says so. -/
theorem c112_false_full (env : SaveEnv) (cos sin : F64) (files : Path → Option SavedFile) (P : Path) (h : env.opens P = true)
    (hr : env.room P < 8 * (4096 * 4096)) :
    ∃ u f, (DisplayWindow.init files).step env cos sin (.save (some P) none) = .ok u ∧ u.files P = some (.bytes f) ∧
      ¬ IsPictureOf f [] ∧ f.length = env.room P := by
  have l1 : (pictureBytes []).length = 8 * (4096 * 4096) := flatMap_length_const _ 8 (fun k => bytesOf_length _) _
  have l2 : ((pictureBytes []).take (env.room P)).length = env.room P := by rw [List.length_take, l1]; omega
  refine ⟨⟨none, false, Function.update files P (some (.bytes ((pictureBytes []).take (env.room P))))⟩, _, ?_, Function.update_self ..,
    fun hp => ?_, l2⟩
  · show (DisplayWindow.write env files (some P) (.bytes (pictureBytes [])) >>= fun f => Pure.pure (DisplayWindow.mk none false f)) = _
    unfold DisplayWindow.write
    simp only
    rw [if_pos h]
    rfl
  · have := hp.1
    omega

/-- C112 fails when both files get the same name: the spectrum takes the place of the picture. -/
theorem c112_false_same (env : SaveEnv) (cos sin : F64) (t : DisplayWindow) (p : ParseState) (r : Ring DisplayHit)
    (hl : t.last = some (p, r)) (ht : t.timer = false) (w : HitWorker) (hw : HitWorker.init.run cos sin r.got = .ok w) (P : Path)
    (hP : Roomy env P) :
    ∃ u f, t.step env cos sin (.save (some P) (some P)) = .ok u ∧ u.files P = some (.bytes f) ∧ ¬ IsPictureOf f w.shown := by
  obtain ⟨last, timer, files⟩ := t
  simp only at hl ht
  subst hl ht
  have l1 : (pictureBytes w.shown).length = 8 * (4096 * 4096) := flatMap_length_const _ 8 (fun k => bytesOf_length _) _
  have l2 : (spectrumBytes p.tofs).length = 4 * 170000 := (spectrum_ok p.tofs).1
  obtain ⟨o1, r1⟩ := hP
  refine ⟨⟨some (p, r), false, Function.update (Function.update files P (some (.bytes (pictureBytes w.shown)))) P
    (some (.bytes (spectrumBytes p.tofs)))⟩, spectrumBytes p.tofs, ?_, Function.update_self .., fun hp => ?_⟩
  · show ((HitWorker.init.run cos sin r.got) >>= fun w => DisplayWindow.write env files (some P) (.bytes (pictureBytes w.shown)) >>= fun f =>
      DisplayWindow.write env f (some P) (.bytes (spectrumBytes p.tofs)) >>= fun f => Pure.pure (DisplayWindow.mk (some (p, r)) false f)) = _
    rw [hw]
    show (DisplayWindow.write env files (some P) (.bytes (pictureBytes w.shown)) >>= fun f =>
      DisplayWindow.write env f (some P) (.bytes (spectrumBytes p.tofs)) >>= fun f => Pure.pure (DisplayWindow.mk (some (p, r)) false f)) = _
    rw [write_some env _ P _ o1 (by rw [l1]; exact r1)]
    show (DisplayWindow.write env (Function.update files P (some (.bytes (pictureBytes w.shown)))) (some P) (.bytes (spectrumBytes p.tofs)) >>= fun f =>
      Pure.pure (DisplayWindow.mk (some (p, r)) false f)) = _
    rw [write_some env _ P _ o1 (by rw [l2]; omega)]
    rfl
  · have := hp.1
    omega

/-- C112 fails when the timer ticks early: of every file of 1 to 4095 hits a picture without any neutron may be saved, beside a spectrum of
all hits. -/
theorem c112_false_hasty (env : SaveEnv) (cos sin : F64) (s : DisplayWindow) (hs : s.timer = false) (file : Bytes) (p : ParseState)
    (hp : fileToHits file = .ok p) (h1 : p.hits ≠ []) (h2 : p.hits.length ≤ 4095) (junk : Nat → DisplayHit) (P T : Path) (hne : P ≠ T)
    (hP : Roomy env P) (hT : Roomy env T) :
    ∃ sched : Nat → RingActor, (∀ a n, ∃ m, n ≤ m ∧ sched m = a) ∧ ∃ n t u f g,
      s.run env cos sin (.read (some (some file)) junk :: ((List.range n).map sched).map .act) = .ok t ∧
      t.step env cos sin (.save (some P) (some T)) = .ok u ∧ u.files P = some (.bytes f) ∧ u.files T = some (.bytes g) ∧
      IsPictureOf f [] ∧ IsSpectrumOf g p.tofs := by
  obtain ⟨sched, hf, n₀, hn₀⟩ := c54_false p.hits junk h1 h2
  obtain ⟨n, t, k1, k2⟩ := c112_ready env cos sin s hs file p hp junk sched hf
  obtain ⟨h, -⟩ := run_read env cos sin s t hs file p hp junk _ k1
  rw [foldl_run] at h
  have hgot : ((Ring.init junk).run p.hits sched n).got = [] := by
    have hx := h.ended (h.stopped k2).2.1
    rw [← ((ringLe_run p.hits (Ring.init junk) sched n (n + n₀) (by omega)).exited hx).2]
    exact (hn₀ (n + n₀) (by omega)).2.1
  obtain ⟨u, f, g, m1, m2, m3, -, m5, m6⟩ := save_ok env cos sin t p _ h.last k2 HitWorker.init (by rw [hgot]; rfl) P T hne hP hT
  exact ⟨sched, hf, n, t, u, f, g, k1, m1, m2, m3, m5 (by decide), m6⟩

/-! ## The hypotheses can be met -/

theorem run_congr {α : Type} (hits : List α) (s : Ring α) (f g : Nat → RingActor) (n : Nat) (h : ∀ k, k < n → f k = g k) :
    s.run hits f n = s.run hits g n := by
  induction n with
  | zero => rfl
  | succ n ih => rw [Ring.run, Ring.run, ih (fun k hk => h k (by omega)), h n (by omega)]

/-- For any hits there is a schedule as in `c112_detector_partial`. -/
theorem late_schedule {α : Type} (hits : List α) (junk : Nat → α) :
    ∃ sched : Nat → RingActor, (∀ a n, ∃ m, n ≤ m ∧ sched m = a) ∧
      ∀ n, sched n = .timer → ((Ring.init junk).run hits sched n).fileDone = true →
        ((Ring.init junk).run hits sched n).got.length = hits.length := by
  obtain ⟨n₀, h0⟩ := c54_delivered_partial hits junk (fun n => if n % 2 = 0 then .producer else .consumer)
    (fun n => ⟨2 * n, by omega, if_pos (by omega)⟩) (fun n => ⟨2 * n + 1, by omega, if_neg (by omega)⟩)
    (fun n h => by split_ifs at h)
  refine ⟨fun n => if n < n₀ then (if n % 2 = 0 then .producer else .consumer) else
    if n % 3 = 0 then .producer else if n % 3 = 1 then .consumer else .timer, fun a n => ?_, fun n hn _ => ?_⟩
  · cases a with
    | producer => exact ⟨3 * (n + n₀), by omega, by dsimp only; rw [if_neg (by omega), if_pos (by omega)]⟩
    | consumer => exact ⟨3 * (n + n₀) + 1, by omega, by dsimp only; rw [if_neg (by omega), if_neg (by omega), if_pos (by omega)]⟩
    | timer => exact ⟨3 * (n + n₀) + 2, by omega, by dsimp only; rw [if_neg (by omega), if_neg (by omega), if_neg (by omega)]⟩
  · dsimp only at hn
    have hle : n₀ ≤ n := by
      by_contra hc
      rw [if_pos (by omega)] at hn
      split_ifs at hn
    have k1 := (ringLe_run hits (Ring.init junk) (fun n => if n < n₀ then (if n % 2 = 0 then .producer else .consumer) else
      if n % 3 = 0 then .producer else if n % 3 = 1 then .consumer else .timer) n₀ n hle).got
    rw [run_congr hits _ _ (fun n => if n % 2 = 0 then .producer else .consumer) n₀ (fun k hk => if_pos hk), h0 n₀ (Nat.le_refl _)] at k1
    exact Nat.le_antisymm (got_le hits _ (ringInv_run hits junk _ n)) k1

/-- A file system with room for everything. -/
def vast : SaveEnv := ⟨fun _ => true, fun _ => 2 ^ 40⟩

/-- The window opens, reads an empty file and saves. -/
example : ∃ n t, (DisplayWindow.init fun _ => none).run vast (.fin 1) (.fin 0) (.read (some (some [])) (fun _ => ⟨0, 0, 0, 0, 0, 0, 0⟩) ::
    ((List.range n).map fun k => if k % 3 = 0 then RingActor.producer else if k % 3 = 1 then .consumer else .timer).map .act) = .ok t ∧
    t.timer = false := by
  refine c112_ready vast _ _ _ rfl [] ⟨[], _, _, _, [], [], 0, 0, 0, 0⟩ rfl _ _ fun a n => ?_
  cases a with
  | producer => exact ⟨3 * n, by omega, if_pos (by omega)⟩
  | consumer => exact ⟨3 * n + 1, by omega, by rw [if_neg (by omega), if_pos (by omega)]⟩
  | timer => exact ⟨3 * n + 2, by omega, by rw [if_neg (by omega), if_neg (by omega)]⟩

/-- All 200 neutrons of the detector of C103 but the last 127 are in the file that is saved. -/
example (junk : Nat → DisplayHit) : ∃ (sched : Nat → RingActor) (n : Nat) (u : DisplayWindow) (f : Bytes) (ls : List (List (Int × Int))),
    (DisplayWindow.init fun _ => none).run vast (.fin 1) (.fin 0) (.read (some (some (detectorFile (neutronShow 200)))) junk ::
      ((List.range n).map sched).map .act ++ [.save (some ['p']) (some ['t'])]) = .ok u ∧
    u.files ['p'] = some (.bytes f) ∧ IsPictureOf f ls.flatten ∧ ls.length = 73 := by
  obtain ⟨h1, h2, h3, h4, h5, h6⟩ := show_ok 200 (Nat.le_refl _)
  obtain ⟨sched, hf, hlate⟩ := late_schedule (pictureReadouts ⟨0, 0⟩ (neutronShow 200)) junk
  have hv : ∀ p, Roomy vast p := fun p => ⟨rfl, by simp [vast]⟩
  obtain ⟨n, u, f, g, ls, k1, k2, -, -, k5, k6, -⟩ := c112_detector_partial (neutronShow 200) h1 h2 h3 _ h4 h5 (by simp) 1 0 (by norm_num)
    (by norm_num) vast (DisplayWindow.init fun _ => none) rfl junk sched hf hlate ['p'] ['t'] (by decide) (hv _) (hv _)
  exact ⟨sched, n, u, f, ls, k1, k2, k6, by rw [← k5.length_eq, h6]⟩

end Verif.Props
