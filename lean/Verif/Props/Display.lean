import Mathlib.Data.List.TakeDrop
import Mathlib.Tactic.Tauto
import Verif.Model.Display

/-!
# The ring buffer of the display program (C54)
-/

namespace Verif.Props

open Verif

theorem ring_after (i : Nat) : Ring.after i = (i + 1) % 4096 := Nat.and_two_pow_sub_one_eq_mod (i + 1) 12

/-- Hits the consumer has dealt with and given back. -/
def released {α : Type} (s : Ring α) : Nat := s.got.length - if s.cons = .advance then 1 else 0

/-- Invariant of the ring. -/
structure RingInv {α : Type} (hits : List α) (s : Ring α) : Prop where
  pi : s.pi = s.next % 4096
  ci : s.ci = released s % 4096
  le : released s ≤ s.next
  room : s.next ≤ released s + 4095
  bound : s.next ≤ hits.length
  slots : ∀ k, released s ≤ k → k < s.next → hits[k]? = some (s.slots (k % 4096))
  got : s.got = hits.take s.got.length
  using' : s.cons = .use ∨ s.cons = .advance → released s < s.next
  adv : s.cons = .advance → 0 < s.got.length
  free : s.prod = .check ∨ s.prod = .copy ∨ s.prod = .publish → s.next < hits.length ∧ s.next < released s + 4095
  written : s.prod = .publish → hits[s.next]? = some (s.slots (s.next % 4096))
  done : s.prod = .done → s.next = hits.length
  flag : s.fileDone = true → s.prod = .done
  killed : s.kill = true → s.fileDone = true

theorem ringInv_init {α : Type} (hits : List α) (junk : Nat → α) : RingInv hits (Ring.init junk) := by
  constructor <;> simp [Ring.init, released]

theorem ringInv_producer {α : Type} (hits : List α) (s : Ring α) (h : RingInv hits s) :
    RingInv hits (s.producerStep hits) := by
  obtain ⟨slots, pi, ci, next, prod, cons, got, fd, cd, kill⟩ := s
  have hr : ∀ (sl : Nat → α) (p n : Nat) (pr : ProducerAt) (f : Bool),
      released (⟨sl, p, ci, n, pr, cons, got, f, cd, kill⟩ : Ring α) = released ⟨slots, pi, ci, next, prod, cons, got, fd, cd, kill⟩ :=
    fun _ _ _ _ _ => rfl
  generalize hR : released (⟨slots, pi, ci, next, prod, cons, got, fd, cd, kill⟩ : Ring α) = R at hr
  obtain ⟨i1, i2, i3, i4, i5, i6, i7, i8, i9, i10, i11, i12, i13, i14⟩ := h
  rw [hR] at i2 i3 i4 i6 i8 i10
  simp only at i1 i2 i3 i4 i5 i6 i7 i8 i9 i10 i11 i12 i13 i14
  unfold Ring.producerStep
  simp only [ring_after]
  cases prod with
  | wait =>
    simp only
    match hn : hits[next]? with
    | none =>
      have hlen : hits.length ≤ next := List.getElem?_eq_none_iff.mp hn
      constructor <;> simp only [hr] <;> try assumption
      · intro hc; simp at hc
      · intro hc; simp at hc
      · intro _; omega
      · intro _; trivial
      · intro _; trivial
    | some x =>
      have hlen := (List.getElem?_eq_some_iff.mp hn).1
      simp only
      split_ifs with hf
      · constructor <;> simp only [hR] <;> assumption
      · constructor <;> simp only [hr] <;> try assumption
        · intro _; omega
        · intro hc; simp at hc
        · intro hc; simp at hc
        · intro hc; have := i13 hc; simp at this
  | check =>
    have hfree := i10 (Or.inl rfl)
    simp only
    rw [if_pos (by omega)]
    constructor <;> simp only [hr] <;> try assumption
    · intro _; exact hfree
    · intro hc; simp at hc
    · intro hc; simp at hc
    · intro hc; have := i13 hc; simp at this
  | copy =>
    have hfree := i10 (Or.inr (Or.inl rfl))
    simp only
    rw [List.getElem?_eq_getElem hfree.1]
    constructor <;> simp only [hr] <;> try assumption
    · intro k h1 h2
      rw [Function.update_of_ne (by omega)]
      exact i6 k h1 h2
    · intro _; exact hfree
    · intro _
      rw [i1, Function.update_self, List.getElem?_eq_getElem hfree.1]
    · intro hc; simp at hc
    · intro hc; have := i13 hc; simp at this
  | publish =>
    have hfree := i10 (Or.inr (Or.inr rfl))
    have hw := i11 rfl
    constructor <;> simp only [hr] <;> try assumption
    · omega
    · omega
    · omega
    · omega
    · intro k h1 h2
      by_cases hk : k = next
      · rw [hk]; exact hw
      · exact i6 k h1 (by omega)
    · intro hc; have := i8 hc; omega
    · intro hc; simp at hc
    · intro hc; simp at hc
    · intro hc; simp at hc
    · intro hc; have := i13 hc; simp at this
  | done => constructor <;> simp only [hr] <;> first | assumption | (intro _; first | exact i12 rfl | trivial)

theorem ringInv_consumer {α : Type} (hits : List α) (s : Ring α) (h : RingInv hits s) :
    RingInv hits s.consumerStep := by
  obtain ⟨slots, pi, ci, next, prod, cons, got, fd, cd, kill⟩ := s
  obtain ⟨i1, i2, i3, i4, i5, i6, i7, i8, i9, i10, i11, i12, i13, i14⟩ := h
  unfold Ring.consumerStep
  simp only [ring_after]
  simp only at i1 i2 i3 i4 i5 i6 i7 i8 i9 i10 i11 i12 i13 i14
  cases cons with
  | outer =>
    simp only [released, reduceCtorEq, if_false] at i2 i3 i4 i6 i8 i9 i10
    simp only
    split_ifs
    all_goals
      constructor <;> simp only [released, reduceCtorEq, if_false] <;> try assumption
  | inner =>
    simp only [released, reduceCtorEq, if_false] at i2 i3 i4 i6 i8 i9 i10
    simp only
    split_ifs with hc
    · constructor <;> simp only [released, reduceCtorEq, if_false] <;> try assumption
      · intro _; omega
    · constructor <;> simp only [released, reduceCtorEq, if_false] <;> try assumption
  | use =>
    simp only [released, reduceCtorEq, if_false] at i2 i3 i4 i6 i8 i9 i10
    have hlt := i8 (Or.inl trivial)
    simp only [Nat.sub_zero] at i2 i3 i4 i6 i8 i10 hlt
    have hx := i6 got.length (Nat.le_refl _) hlt
    constructor <;> simp only [released, if_true, List.length_append, List.length_cons, List.length_nil,
      Nat.zero_add, Nat.add_sub_cancel] <;> try assumption
    · rw [i2, List.take_add_one, ← i7, hx]; rfl
    · intro _; exact hlt
    · omega
  | advance =>
    have hpos := i9 rfl
    have hlt := i8 (Or.inr rfl)
    simp only [released, if_true] at i2 i3 i4 i6 i8 i10 hlt
    constructor <;> simp only [released, reduceCtorEq, if_false, Nat.sub_zero] <;> try assumption
    · omega
    · omega
    · omega
    · intro k h1 h2; exact i6 k (by omega) h2
    · simp
    · simp
    · intro hc; have := i10 hc; omega
  | exited => exact ⟨i1, i2, i3, i4, i5, i6, i7, i8, i9, i10, i11, i12, i13, i14⟩

theorem ringInv_step {α : Type} (hits : List α) (s : Ring α) (h : RingInv hits s) (a : RingActor) :
    RingInv hits (s.step hits a) := by
  cases a with
  | producer => exact ringInv_producer hits s h
  | consumer => exact ringInv_consumer hits s h
  | timer =>
    unfold Ring.step Ring.timerStep
    simp only
    split_ifs with hf
    · obtain ⟨i1, i2, i3, i4, i5, i6, i7, i8, i9, i10, i11, i12, i13, i14⟩ := h
      exact ⟨i1, i2, i3, i4, i5, i6, i7, i8, i9, i10, i11, i12, i13, fun _ => hf⟩
    · exact h

theorem ringInv_run {α : Type} (hits : List α) (junk : Nat → α) (sched : Nat → RingActor) (n : Nat) :
    RingInv hits ((Ring.init junk).run hits sched n) := by
  induction n with
  | zero => exact ringInv_init hits junk
  | succ n ih => exact ringInv_step hits _ ih _

/-- C54, safety: after any steps in any order the consumer has worked on the first hits of the file, each once and in
order; nothing is dropped at the producer, both indices stay inside the array, and the hits in between are intact. -/
theorem c54_fifo_partial {α : Type} (hits : List α) (junk : Nat → α) (sched : Nat → RingActor) (n : Nat) :
    let s := (Ring.init junk).run hits sched n
    s.got <+: hits ∧ s.pi < 4096 ∧ s.ci < 4096 ∧ s.got.length ≤ s.next ∧ s.next ≤ s.got.length + 4095 ∧
      ∀ k, s.got.length ≤ k → k < s.next → hits[k]? = some (s.slots (k % 4096)) := by
  intro s
  have h : RingInv hits s := ringInv_run hits junk sched n
  have hrel : released s ≤ s.got.length := by unfold released; omega
  have hle : s.got.length ≤ s.next := by
    have h1 := h.le
    have h2 := h.using'
    have h3 := h.adv
    by_cases hc : s.cons = .advance
    · have := h2 (Or.inr hc)
      have := h3 hc
      unfold released at *
      rw [if_pos hc] at *
      omega
    · unfold released at h1
      rw [if_neg hc] at h1
      exact h1
  refine ⟨?_, by rw [h.pi]; omega, by rw [h.ci]; omega, hle, by have := h.room; omega, ?_⟩
  · rw [h.got]; exact List.take_prefix _ _
  · intro k h1 h2
    exact h.slots k (by omega) h2

/-- C54, mutual exclusion: the slot at `ci` holds the hit the consumer works on during all of that work, and while the
producer copies or is about to publish it works on another slot. -/
theorem c54_exclusive {α : Type} (hits : List α) (junk : Nat → α) (sched : Nat → RingActor) (n : Nat) :
    let s := (Ring.init junk).run hits sched n
    (s.cons = .use → hits[s.got.length]? = some (s.slots s.ci)) ∧
      (s.cons = .advance → s.got.getLast? = some (s.slots s.ci)) ∧
      (s.prod = .copy ∨ s.prod = .publish → s.cons = .use ∨ s.cons = .advance → s.pi ≠ s.ci) := by
  intro s
  have h : RingInv hits s := ringInv_run hits junk sched n
  have hx : s.cons = .use ∨ s.cons = .advance → hits[released s]? = some (s.slots s.ci) := by
    intro hu
    rw [h.ci]
    exact h.slots _ (Nat.le_refl _) (h.using' hu)
  refine ⟨fun hu => ?_, fun hu => ?_, fun hp hu => ?_⟩
  · have := hx (Or.inl hu)
    unfold released at this
    rw [hu] at this
    exact this
  · have h1 := hx (Or.inr hu)
    have h2 := h.adv hu
    unfold released at h1
    rw [if_pos hu] at h1
    rw [← h1, List.getLast?_eq_getElem?]
    conv_lhs => rw [h.got]
    rw [List.getElem?_take_of_lt (by rw [← h.got]; omega), ← h.got]
  · have h1 := h.free (by tauto)
    have h2 := h.using' hu
    have h3 := h.le
    rw [h.pi, h.ci]
    omega

/-! ## Progress -/

/-- A quantity that never grows and shrinks at every turn of an actor that keeps getting turns reaches zero. -/
theorem turns_reach_zero {β : Type} (sched : Nat → β) (b : β) (hf : ∀ n, ∃ m, n ≤ m ∧ sched m = b) (φ : Nat → Nat) (n : Nat)
    (hm : ∀ m, n ≤ m → φ (m + 1) ≤ φ m) (hd : ∀ m, n ≤ m → sched m = b → φ m ≠ 0 → φ (m + 1) < φ m) :
    ∃ m, n ≤ m ∧ φ m = 0 := by
  have mono : ∀ k m, n ≤ m → φ (m + k) ≤ φ m := by
    intro k
    induction k with
    | zero => intro m _; simp
    | succ k ih => intro m h; exact Nat.le_trans (hm (m + k) (by omega)) (ih m h)
  have key : ∀ v m, n ≤ m → φ m ≤ v → ∃ m', n ≤ m' ∧ φ m' = 0 := by
    intro v
    induction v with
    | zero => intro m h hv; exact ⟨m, h, by omega⟩
    | succ v ih =>
      intro m h hv
      by_cases hz : φ m = 0
      · exact ⟨m, h, hz⟩
      obtain ⟨m', h1, h2⟩ := hf m
      obtain ⟨k, rfl⟩ := Nat.exists_eq_add_of_le h1
      have h3 := mono k m h
      by_cases hz' : φ (m + k) = 0
      · exact ⟨m + k, by omega, hz'⟩
      · exact ih (m + k + 1) (by omega) (by have := hd (m + k) (by omega) h2 hz'; omega)
  exact key _ n (Nat.le_refl _) (Nat.le_refl _)

/-- What never goes back: the counts, and being done, killed and out of the loop. -/
structure RingLe {α : Type} (s t : Ring α) : Prop where
  next : s.next ≤ t.next
  rel : released s ≤ released t
  got : s.got.length ≤ t.got.length
  file : s.fileDone = true → t.fileDone = true
  kill : s.kill = true → t.kill = true
  exited : s.cons = .exited → t.cons = .exited ∧ t.got = s.got
  done : s.prod = .done → t.prod = .done

theorem RingLe.refl {α : Type} (s : Ring α) : RingLe s s :=
  ⟨Nat.le_refl _, Nat.le_refl _, Nat.le_refl _, id, id, fun h => ⟨h, rfl⟩, id⟩

theorem RingLe.trans {α : Type} {s t u : Ring α} (h : RingLe s t) (k : RingLe t u) : RingLe s u :=
  ⟨Nat.le_trans h.next k.next, Nat.le_trans h.rel k.rel, Nat.le_trans h.got k.got, fun x => k.file (h.file x),
    fun x => k.kill (h.kill x), fun x => ⟨(k.exited (h.exited x).1).1, (k.exited (h.exited x).1).2.trans (h.exited x).2⟩,
    fun x => k.done (h.done x)⟩

theorem ringLe_step {α : Type} (hits : List α) (s : Ring α) (a : RingActor) : RingLe s (s.step hits a) := by
  obtain ⟨slots, pi, ci, next, prod, cons, got, fd, cd, kill⟩ := s
  cases a with
  | producer =>
    unfold Ring.step Ring.producerStep
    cases prod with
    | wait =>
      simp only
      match hits[next]? with
      | none => constructor <;> simp [released]
      | some x => simp only; split_ifs <;> constructor <;> simp [released]
    | check => simp only; split_ifs <;> constructor <;> simp [released]
    | copy =>
      simp only
      match hits[next]? with
      | none => constructor <;> simp [released]
      | some x => constructor <;> simp [released]
    | publish => constructor <;> simp [released]
    | done => constructor <;> simp [released]
  | consumer =>
    unfold Ring.step Ring.consumerStep
    cases cons with
    | outer => simp only; split_ifs <;> constructor <;> simp [released]
    | inner => simp only; split_ifs <;> constructor <;> simp [released]
    | use => constructor <;> simp [released]
    | advance => constructor <;> simp [released]
    | exited => constructor <;> simp [released]
  | timer =>
    unfold Ring.step Ring.timerStep
    simp only
    split_ifs <;> constructor <;> simp_all [released]

theorem ringLe_run {α : Type} (hits : List α) (s : Ring α) (sched : Nat → RingActor) (n m : Nat) (h : n ≤ m) :
    RingLe (s.run hits sched n) (s.run hits sched m) := by
  obtain ⟨k, rfl⟩ := Nat.exists_eq_add_of_le h
  induction k with
  | zero => exact RingLe.refl _
  | succ k ih => exact (ih (by omega)).trans (ringLe_step hits _ _)

/-- Only a kill ends the consumer, and it then says so. -/
theorem exited_run {α : Type} (hits : List α) (junk : Nat → α) (sched : Nat → RingActor) (n : Nat) :
    ((Ring.init junk).run hits sched n).cons = .exited →
      ((Ring.init junk).run hits sched n).kill = true ∧ ((Ring.init junk).run hits sched n).clusterDone = true := by
  induction n with
  | zero => intro h; cases h
  | succ n ih =>
    simp only [Ring.run]
    generalize (Ring.init junk).run hits sched n = s at *
    obtain ⟨slots, pi, ci, next, prod, cons, got, fd, cd, kill⟩ := s
    simp only at ih
    cases sched n with
    | producer =>
      unfold Ring.step Ring.producerStep
      cases prod with
      | wait =>
        simp only
        match hits[next]? with
        | none => exact ih
        | some x => simp only; split_ifs <;> exact ih
      | check => simp only; split_ifs <;> exact ih
      | copy =>
        simp only
        match hits[next]? with
        | none => exact ih
        | some x => exact ih
      | publish => exact ih
      | done => exact ih
    | consumer =>
      unfold Ring.step Ring.consumerStep
      cases cons with
      | outer => simp only; split_ifs with hk <;> simp [hk]
      | inner => simp only; split_ifs <;> simp
      | use => simp
      | advance => simp
      | exited => exact ih
    | timer =>
      unfold Ring.step Ring.timerStep
      simp only
      split_ifs
      · intro h; exact ⟨rfl, (ih h).2⟩
      · exact ih

/-- Steps until the producer publishes hit `k`, if it is the next one and there is room. -/
def producerLeft {α : Type} (k : Nat) (s : Ring α) : Nat :=
  if k < s.next then 0 else match s.prod with
    | .wait => 4 | .check => 3 | .copy => 2 | .publish => 1 | .done => 0

/-- Steps until the consumer gives back hit `k`, if it is the next one and published. -/
def consumerLeft {α : Type} (k : Nat) (s : Ring α) : Nat :=
  if k < released s then 0 else match s.cons with
    | .outer => 4 | .inner => 3 | .use => 2 | .advance => 1 | .exited => 0

theorem producerLeft_other {α : Type} (hits : List α) (k : Nat) (s : Ring α) (a : RingActor) (ha : a ≠ .producer) :
    producerLeft k (s.step hits a) = producerLeft k s := by
  obtain ⟨slots, pi, ci, next, prod, cons, got, fd, cd, kill⟩ := s
  cases a with
  | producer => exact absurd rfl ha
  | consumer =>
    unfold Ring.step Ring.consumerStep
    cases cons with
    | outer => simp only; split_ifs <;> rfl
    | inner => simp only; split_ifs <;> rfl
    | use => rfl
    | advance => rfl
    | exited => rfl
  | timer => unfold Ring.step Ring.timerStep; simp only; split_ifs <;> rfl

theorem producerLeft_producer {α : Type} (hits : List α) (k : Nat) (hk : k < hits.length) (s : Ring α) (h : RingInv hits s)
    (hr : k ≤ released s) (hz : producerLeft k s ≠ 0) : producerLeft k (s.producerStep hits) < producerLeft k s := by
  have hnext : s.next = k := by
    unfold producerLeft at hz
    split_ifs at hz with hlt
    · exact absurd rfl hz
    · have := h.le; omega
  have hle := h.le
  have h1 := h.pi
  have h2 := h.ci
  obtain ⟨slots, pi, ci, next, prod, cons, got, fd, cd, kill⟩ := s
  simp only at hnext h1 hle h2
  generalize hR : released (⟨slots, pi, ci, next, prod, cons, got, fd, cd, kill⟩ : Ring α) = R at hle h2 hr
  subst hnext
  have hne : ¬ (pi + 1) % 4096 = ci := by omega
  unfold Ring.producerStep producerLeft
  simp only [ring_after, List.getElem?_eq_getElem hk]
  cases prod with
  | wait => simp [hne]
  | check => simp [hne]
  | copy => simp
  | publish => simp
  | done => simp [producerLeft] at hz

theorem consumerLeft_other {α : Type} (hits : List α) (k : Nat) (s : Ring α) (a : RingActor) (ha : a ≠ .consumer) :
    consumerLeft k (s.step hits a) = consumerLeft k s := by
  obtain ⟨slots, pi, ci, next, prod, cons, got, fd, cd, kill⟩ := s
  cases a with
  | consumer => exact absurd rfl ha
  | producer =>
    unfold Ring.step Ring.producerStep
    cases prod with
    | wait =>
      simp only
      match hits[next]? with
      | none => rfl
      | some x => simp only; split_ifs <;> rfl
    | check => simp only; split_ifs <;> rfl
    | copy =>
      simp only
      match hits[next]? with
      | none => rfl
      | some x => rfl
    | publish => rfl
    | done => rfl
  | timer => unfold Ring.step Ring.timerStep; simp only; split_ifs <;> rfl

theorem consumerLeft_consumer {α : Type} (hits : List α) (k : Nat) (s : Ring α) (h : RingInv hits s) (hkill : s.kill = false)
    (hr : k ≤ released s) (hn : k < s.next) (hz : consumerLeft k s ≠ 0) :
    consumerLeft k s.consumerStep < consumerLeft k s := by
  have hrel : released s = k := by
    unfold consumerLeft at hz
    split_ifs at hz with hlt
    · exact absurd rfl hz
    · omega
  have h1 := h.pi
  have h2 := h.ci
  have h3 := h.room
  have h4 := h.adv
  rw [hrel] at h2 h3
  obtain ⟨slots, pi, ci, next, prod, cons, got, fd, cd, kill⟩ := s
  simp only at h1 h2 h3 h4 hn hkill
  subst hkill
  unfold Ring.consumerStep
  cases cons with
  | outer => simp only [released, reduceCtorEq, if_false] at hrel; simp [consumerLeft, released, hrel]
  | inner =>
    simp only [released, reduceCtorEq, if_false] at hrel
    simp only
    rw [if_pos (by omega)]
    simp [consumerLeft, released, hrel]
  | use => simp only [released, reduceCtorEq, if_false] at hrel; simp [consumerLeft, released, show ¬ k < got.length by omega]
  | advance =>
    have := h4 rfl
    simp only [released, if_true] at hrel
    simp [consumerLeft, released, show ¬ k < got.length - 1 by omega, show k < got.length by omega]
  | exited => simp [consumerLeft] at hz

/-- Without a kill every hit is delivered in the end. -/
theorem released_all {α : Type} (hits : List α) (junk : Nat → α) (sched : Nat → RingActor)
    (hp : ∀ n, ∃ m, n ≤ m ∧ sched m = .producer) (hc : ∀ n, ∃ m, n ≤ m ∧ sched m = .consumer)
    (hk : ∀ n, ((Ring.init junk).run hits sched n).kill = false) (k : Nat) (hlen : k ≤ hits.length) :
    ∃ n, k ≤ released ((Ring.init junk).run hits sched n) := by
  induction k with
  | zero => exact ⟨0, Nat.zero_le _⟩
  | succ k ih =>
    obtain ⟨n, hn⟩ := ih (by omega)
    have inv := ringInv_run hits junk sched
    have mono := ringLe_run hits (Ring.init junk) sched
    have hrel : ∀ m, n ≤ m → k ≤ released ((Ring.init junk).run hits sched m) :=
      fun m hm => Nat.le_trans hn (mono n m hm).rel
    obtain ⟨m, hm, hz⟩ := turns_reach_zero sched .producer hp
      (fun m => producerLeft k ((Ring.init junk).run hits sched m)) n
      (fun m hm => by
        by_cases ha : sched m = .producer
        · by_cases hz : producerLeft k ((Ring.init junk).run hits sched m) = 0
          · simp only [Ring.run, ha]
            have : k < ((Ring.init junk).run hits sched m).next := by
              by_contra hcon
              unfold producerLeft at hz
              rw [if_neg hcon] at hz
              cases hpr : ((Ring.init junk).run hits sched m).prod with
              | done => have := (inv m).done hpr; omega
              | _ => rw [hpr] at hz; cases hz
            have h2 : k < ((Ring.init junk).run hits sched (m + 1)).next :=
              Nat.lt_of_lt_of_le this (mono m (m + 1) (by omega)).next
            simp only [Ring.run, ha] at h2
            unfold producerLeft
            rw [if_pos h2]
            exact Nat.zero_le _
          · simp only [Ring.run, ha]
            exact Nat.le_of_lt (producerLeft_producer hits k (by omega) _ (inv m) (hrel m hm) hz)
        · simp only [Ring.run]
          exact Nat.le_of_eq (producerLeft_other hits k _ _ ha))
      (fun m hm ha hz => by
        simp only [Ring.run, ha]
        exact producerLeft_producer hits k (by omega) _ (inv m) (hrel m hm) hz)
    have hnext : k < ((Ring.init junk).run hits sched m).next := by
      by_contra hcon
      simp only [producerLeft] at hz
      rw [if_neg hcon] at hz
      cases hpr : ((Ring.init junk).run hits sched m).prod with
      | done => have := (inv m).done hpr; omega
      | _ => rw [hpr] at hz; cases hz
    have hnexts : ∀ j, m ≤ j → k < ((Ring.init junk).run hits sched j).next :=
      fun j hj => Nat.lt_of_lt_of_le hnext (mono m j hj).next
    have hzero : ∀ j, consumerLeft k ((Ring.init junk).run hits sched j) = 0 →
        k < released ((Ring.init junk).run hits sched j) := by
      intro j hz
      by_contra hcon
      unfold consumerLeft at hz
      rw [if_neg hcon] at hz
      cases hpr : ((Ring.init junk).run hits sched j).cons with
      | exited =>
        have := (exited_run hits junk sched j hpr).1
        rw [hk j] at this
        cases this
      | _ => rw [hpr] at hz; cases hz
    obtain ⟨j, hj, hz⟩ := turns_reach_zero sched .consumer hc
      (fun m => consumerLeft k ((Ring.init junk).run hits sched m)) m
      (fun j hj => by
        by_cases ha : sched j = .consumer
        · by_cases hz : consumerLeft k ((Ring.init junk).run hits sched j) = 0
          · have h2 := Nat.lt_of_lt_of_le (hzero j hz) (mono j (j + 1) (by omega)).rel
            unfold consumerLeft
            rw [if_pos h2]
            exact Nat.zero_le _
          · simp only [Ring.run, ha]
            exact Nat.le_of_lt (consumerLeft_consumer hits k _ (inv j) (hk j) (hrel j (by omega)) (hnexts j hj) hz)
        · simp only [Ring.run]
          exact Nat.le_of_eq (consumerLeft_other hits k _ _ ha))
      (fun j hj ha hz => by
        simp only [Ring.run, ha]
        exact consumerLeft_consumer hits k _ (inv j) (hk j) (hrel j (by omega)) (hnexts j hj) hz)
    exact ⟨j, hzero j hz⟩

theorem got_le {α : Type} (hits : List α) (s : Ring α) (h : RingInv hits s) : s.got.length ≤ hits.length := by
  have := congrArg List.length h.got
  rw [List.length_take] at this
  omega

theorem kill_step {α : Type} (hits : List α) (s : Ring α) (a : RingActor) (h : (s.step hits a).kill = true) :
    s.kill = true ∨ a = .timer ∧ s.fileDone = true := by
  obtain ⟨slots, pi, ci, next, prod, cons, got, fd, cd, kill⟩ := s
  cases a with
  | timer =>
    unfold Ring.step Ring.timerStep at h
    simp only at h
    split_ifs at h with hf
    · exact Or.inr ⟨rfl, hf⟩
    · exact Or.inl h
  | producer =>
    left
    unfold Ring.step Ring.producerStep at h
    cases prod with
    | wait =>
      simp only at h
      match hx : hits[next]? with
      | none => simpa [hx] using h
      | some x => simp only [hx] at h; split_ifs at h <;> exact h
    | check => simp only at h; split_ifs at h <;> exact h
    | copy =>
      simp only at h
      match hx : hits[next]? with
      | none => simpa [hx] using h
      | some x => simpa [hx] using h
    | publish => exact h
    | done => exact h
  | consumer =>
    left
    unfold Ring.step Ring.consumerStep at h
    cases cons with
    | outer => simp only at h; split_ifs at h <;> assumption
    | inner => simp only at h; split_ifs at h <;> exact h
    | use => exact h
    | advance => exact h
    | exited => exact h

/-- C54, delivery: if producer and consumer keep getting turns and no tick of the timer finds the file finished while the
consumer is behind, every hit is delivered once and in order, and this stays so. -/
theorem c54_delivered_partial {α : Type} (hits : List α) (junk : Nat → α) (sched : Nat → RingActor)
    (hp : ∀ n, ∃ m, n ≤ m ∧ sched m = .producer) (hc : ∀ n, ∃ m, n ≤ m ∧ sched m = .consumer)
    (ht : ∀ n, sched n = .timer → ((Ring.init junk).run hits sched n).fileDone = true →
      ((Ring.init junk).run hits sched n).got.length = hits.length) :
    ∃ n, ∀ m, n ≤ m → ((Ring.init junk).run hits sched m).got = hits := by
  have inv := ringInv_run hits junk sched
  have mono := ringLe_run hits (Ring.init junk) sched
  suffices hs : ∃ n, hits.length ≤ ((Ring.init junk).run hits sched n).got.length by
    obtain ⟨n, hn⟩ := hs
    refine ⟨n, fun m hm => ?_⟩
    rw [(inv m).got, List.take_of_length_le]
    exact Nat.le_trans hn (mono n m hm).got
  by_contra hcon
  have hcon' : ∀ n, ((Ring.init junk).run hits sched n).got.length < hits.length :=
    fun n => Nat.lt_of_not_le fun h => hcon ⟨n, h⟩
  have hk : ∀ n, ((Ring.init junk).run hits sched n).kill = false := by
    intro n
    induction n with
    | zero => rfl
    | succ n ih =>
      rw [Bool.eq_false_iff]
      intro hkill
      rcases kill_step hits _ _ hkill with h | ⟨h1, h2⟩
      · rw [ih] at h; cases h
      · have := ht n h1 h2
        have := hcon' n
        omega
  obtain ⟨n, hn⟩ := released_all hits junk sched hp hc hk hits.length (Nat.le_refl _)
  have h1 := hcon' n
  unfold released at hn
  omega

/-- Steps until the consumer ends, once the file is finished and the kill is out. -/
def exitLeft {α : Type} (s : Ring α) : Nat :=
  match s.cons with
  | .exited => 0
  | .outer => 1
  | .inner => 4 * (s.next - released s) + 2
  | .use => 4 * (s.next - released s) + 1
  | .advance => 4 * (s.next - released s)

theorem exitLeft_consumer {α : Type} (hits : List α) (s : Ring α) (h : RingInv hits s) (hkill : s.kill = true)
    (hz : exitLeft s ≠ 0) : exitLeft s.consumerStep < exitLeft s := by
  have h1 := h.pi
  have h2 := h.ci
  have h3 := h.room
  have h4 := h.adv
  have h5 := h.using'
  have h6 := h.le
  obtain ⟨slots, pi, ci, next, prod, cons, got, fd, cd, kill⟩ := s
  simp only at h1 h2 h3 h4 h5 h6 hkill
  subst hkill
  unfold Ring.consumerStep
  cases cons with
  | outer => simp [exitLeft]
  | inner =>
    simp only [released, reduceCtorEq, if_false, Nat.sub_zero] at h2 h3 h6
    by_cases he : ci ≠ pi
    · simp [he, exitLeft, released]
    · simp [he, exitLeft]
  | use =>
    simp [exitLeft, released]
  | advance =>
    have h4 := h4 rfl
    have h5 := h5 (Or.inr rfl)
    simp only [released, if_true] at h5
    simp only [exitLeft, released, reduceCtorEq, if_false, if_true, Nat.sub_zero]
    omega
  | exited => simp [exitLeft] at hz

/-- C54, termination: if all three keep getting turns, the file is read to its end and the consumer ends. -/
theorem c54_terminates {α : Type} (hits : List α) (junk : Nat → α) (sched : Nat → RingActor)
    (hf : ∀ a n, ∃ m, n ≤ m ∧ sched m = a) :
    ∃ n, ((Ring.init junk).run hits sched n).fileDone = true ∧ ((Ring.init junk).run hits sched n).next = hits.length ∧
      ((Ring.init junk).run hits sched n).clusterDone = true := by
  have inv := ringInv_run hits junk sched
  have mono := ringLe_run hits (Ring.init junk) sched
  obtain ⟨n, hn⟩ : ∃ n, ((Ring.init junk).run hits sched n).fileDone = true := by
    by_contra hcon
    have hfd : ∀ n, ((Ring.init junk).run hits sched n).fileDone = false :=
      fun n => Bool.eq_false_iff.mpr fun h => hcon ⟨n, h⟩
    have hk : ∀ n, ((Ring.init junk).run hits sched n).kill = false := fun n => Bool.eq_false_iff.mpr fun h => by
      have := (inv n).killed h
      rw [hfd n] at this
      cases this
    obtain ⟨n, hn⟩ := released_all hits junk sched (hf .producer) (hf .consumer) hk hits.length (Nat.le_refl _)
    obtain ⟨m, hm, ha⟩ := hf .producer n
    have h1 := Nat.le_trans hn (mono n m hm).rel
    have h2 := (inv m).le
    have h3 := (inv m).bound
    have h4 := (inv m).free
    have h5 : ((Ring.init junk).run hits sched m).prod = .wait ∨ ((Ring.init junk).run hits sched m).prod = .done := by
      cases hpr : ((Ring.init junk).run hits sched m).prod with
      | wait => exact Or.inl rfl
      | done => exact Or.inr rfl
      | _ => have := h4 (by rw [hpr]; simp); omega
    rcases h5 with h5 | h5
    · apply hcon
      refine ⟨m + 1, ?_⟩
      simp only [Ring.run, ha, Ring.step, Ring.producerStep, h5]
      rw [List.getElem?_eq_none (by omega)]
    · have hd : ∀ n, ((Ring.init junk).run hits sched n).prod = .done →
          ((Ring.init junk).run hits sched n).fileDone = true := by
        intro n
        induction n with
        | zero => intro h; cases h
        | succ n ih =>
          intro h
          by_cases hp : ((Ring.init junk).run hits sched n).prod = .done
          · exact (mono n (n + 1) (by omega)).file (ih hp)
          · simp only [Ring.run] at h ⊢
            generalize (Ring.init junk).run hits sched n = s at *
            obtain ⟨slots, pi, ci, next, prod, cons, got, fd, cd, kill⟩ := s
            cases hs : sched n with
            | producer =>
              rw [hs] at h
              unfold Ring.step Ring.producerStep at h ⊢
              cases prod with
              | wait =>
                simp only at h ⊢
                match hx : hits[next]? with
                | none => rfl
                | some x => simp only [hx] at h; split_ifs at h
              | check => simp only at h; split_ifs at h
              | copy =>
                simp only at h
                match hx : hits[next]? with
                | none => simp only [hx, reduceCtorEq] at h
                | some x => simp only [hx, reduceCtorEq] at h
              | publish => cases h
              | done => exact absurd rfl hp
            | consumer =>
              rw [hs] at h
              exfalso
              unfold Ring.step Ring.consumerStep at h
              cases cons with
              | outer => simp only at h; split_ifs at h <;> exact hp h
              | inner => simp only at h; split_ifs at h <;> exact hp h
              | use => exact hp h
              | advance => exact hp h
              | exited => exact hp h
            | timer =>
              rw [hs] at h
              exfalso
              unfold Ring.step Ring.timerStep at h
              simp only at h
              split_ifs at h <;> exact hp h
      exact hcon ⟨m, hd m h5⟩
  obtain ⟨m, hm, ha⟩ := hf .timer n
  have hkill : ((Ring.init junk).run hits sched (m + 1)).kill = true := by
    simp only [Ring.run, ha, Ring.step, Ring.timerStep]
    rw [if_pos ((mono n m hm).file hn)]
  have hk : ∀ j, m + 1 ≤ j → ((Ring.init junk).run hits sched j).kill = true := fun j hj => (mono _ j hj).kill hkill
  have hfd : ∀ j, m + 1 ≤ j → ((Ring.init junk).run hits sched j).prod = .done :=
    fun j hj => (inv j).flag ((inv j).killed (hk j hj))
  have hother : ∀ j, m + 1 ≤ j → sched j ≠ .consumer →
      exitLeft ((Ring.init junk).run hits sched (j + 1)) = exitLeft ((Ring.init junk).run hits sched j) := by
    intro j hj hne
    have h1 := hfd j hj
    simp only [Ring.run]
    cases hs : sched j with
    | consumer => exact absurd hs hne
    | producer => unfold Ring.step Ring.producerStep; simp only [h1]
    | timer => unfold Ring.step Ring.timerStep; simp only; split_ifs <;> rfl
  have hexit : ∀ j, exitLeft ((Ring.init junk).run hits sched j) = 0 → ((Ring.init junk).run hits sched j).cons = .exited := by
    intro j hz
    have h1 := (inv j).using'
    unfold exitLeft at hz
    cases hpr : ((Ring.init junk).run hits sched j).cons with
    | exited => rfl
    | advance =>
      rw [hpr] at hz
      have := h1 (Or.inr hpr)
      simp only at hz
      omega
    | outer => rw [hpr] at hz; simp at hz
    | inner => rw [hpr] at hz; simp at hz
    | use => rw [hpr] at hz; simp at hz
  obtain ⟨j, hj, hz⟩ := turns_reach_zero sched .consumer (hf .consumer)
    (fun j => exitLeft ((Ring.init junk).run hits sched j)) (m + 1)
    (fun j hj => by
      by_cases hs : sched j = .consumer
      · by_cases hz : exitLeft ((Ring.init junk).run hits sched j) = 0
        · have h1 := hexit j hz
          simp only [Ring.run, hs, Ring.step, Ring.consumerStep, h1]
          exact Nat.le_refl _
        · simp only [Ring.run, hs]
          exact Nat.le_of_lt (exitLeft_consumer hits _ (inv j) (hk j hj) hz)
      · exact Nat.le_of_eq (hother j hj hs))
    (fun j hj hs hz => by
      simp only [Ring.run, hs]
      exact exitLeft_consumer hits _ (inv j) (hk j hj) hz)
  exact ⟨j, (inv j).killed (hk j hj), (inv j).done (hfd j hj), (exited_run hits junk sched j (hexit j hz)).2⟩

/-! ## C54 is false when the timer ticks too early -/

/-- The producer reads the whole file, the timer ticks, the consumer looks at the flag. -/
def hastySchedule (len n : Nat) : RingActor :=
  if n < 4 * len + 1 then .producer else if n = 4 * len + 1 then .timer
  else if n % 3 = 0 then .producer else if n % 3 = 1 then .timer else .consumer

theorem hasty_run {α : Type} (hits : List α) (junk : Nat → α) (hlen : hits.length ≤ 4095) (k : Nat) (hk : k ≤ hits.length) :
    ∃ slots, (Ring.init junk).run hits (hastySchedule hits.length) (4 * k) =
      ⟨slots, k, 0, k, .wait, .outer, [], false, false, false⟩ := by
  induction k with
  | zero => exact ⟨junk, rfl⟩
  | succ k ih =>
    obtain ⟨slots, hs⟩ := ih (by omega)
    have h0 : ∀ i, i < 4 → hastySchedule hits.length (4 * k + i) = .producer := by
      intro i hi
      unfold hastySchedule
      rw [if_pos (by omega)]
    refine ⟨Function.update slots k (hits[k]'(by omega)), ?_⟩
    have hmod : (k + 1) % 4096 = k + 1 := by omega
    have e : 4 * (k + 1) = 4 * k + 0 + 1 + 1 + 1 + 1 := by omega
    have g := List.getElem?_eq_getElem (l := hits) (i := k) (by omega)
    rw [e]
    have h00 : hastySchedule hits.length (4 * k) = .producer := h0 0 (by omega)
    simp only [Ring.run, h00, h0 1 (by omega), h0 2 (by omega), h0 3 (by omega), hs]
    simp [Ring.step, Ring.producerStep, ring_after, g, hmod]

/-- C54 fails: for every file of 1 to 4095 hits there is a schedule that gives all three their turns for ever, and in which
the consumer ends without having seen any hit. -/
theorem c54_false {α : Type} (hits : List α) (junk : Nat → α) (h1 : hits ≠ []) (h2 : hits.length ≤ 4095) :
    ∃ sched : Nat → RingActor, (∀ a n, ∃ m, n ≤ m ∧ sched m = a) ∧
      ∃ n, ∀ m, n ≤ m → ((Ring.init junk).run hits sched m).cons = .exited ∧
        ((Ring.init junk).run hits sched m).got = [] ∧ ((Ring.init junk).run hits sched m).got ≠ hits := by
  refine ⟨hastySchedule hits.length, fun a n => ?_, ?_⟩
  · have key : ∀ r, r < 3 → ∃ m, n ≤ m ∧ 4 * hits.length + 2 ≤ m ∧ m % 3 = r := by
      intro r hr
      exact ⟨3 * (n + 4 * hits.length + 2) + r, by omega, by omega, by omega⟩
    cases a with
    | producer =>
      obtain ⟨m, a1, a2, a3⟩ := key 0 (by omega)
      refine ⟨m, a1, ?_⟩
      unfold hastySchedule
      rw [if_neg (by omega), if_neg (by omega), if_pos a3]
    | timer =>
      obtain ⟨m, a1, a2, a3⟩ := key 1 (by omega)
      refine ⟨m, a1, ?_⟩
      unfold hastySchedule
      rw [if_neg (by omega), if_neg (by omega), if_neg (by omega), if_pos a3]
    | consumer =>
      obtain ⟨m, a1, a2, a3⟩ := key 2 (by omega)
      refine ⟨m, a1, ?_⟩
      unfold hastySchedule
      rw [if_neg (by omega), if_neg (by omega), if_neg (by omega), if_neg (by omega)]
  · obtain ⟨slots, hs⟩ := hasty_run hits junk h2 hits.length (Nat.le_refl _)
    have e1 : hastySchedule hits.length (4 * hits.length) = .producer := by
      unfold hastySchedule
      rw [if_pos (by omega)]
    have e2 : hastySchedule hits.length (4 * hits.length + 1) = .timer := by
      unfold hastySchedule
      rw [if_neg (by omega), if_pos rfl]
    have hkill : ∀ m, 4 * hits.length + 2 ≤ m → ((Ring.init junk).run hits (hastySchedule hits.length) m).kill = true ∧
        ((Ring.init junk).run hits (hastySchedule hits.length) m).got = [] ∧
        (((Ring.init junk).run hits (hastySchedule hits.length) m).cons = .outer ∨
          ((Ring.init junk).run hits (hastySchedule hits.length) m).cons = .exited) := by
      intro m hm
      obtain ⟨k, rfl⟩ := Nat.exists_eq_add_of_le hm
      clear hm
      induction k with
      | zero =>
        simp only [Ring.run, e1, e2, hs]
        simp [Ring.step, Ring.producerStep, Ring.timerStep]
      | succ k ih =>
        rw [← Nat.add_assoc]
        simp only [Ring.run]
        generalize (Ring.init junk).run hits (hastySchedule hits.length) (4 * hits.length + 2 + k) = s at ih
        obtain ⟨i1, i2, i3⟩ := ih
        have hle := ringLe_step hits s (hastySchedule hits.length (4 * hits.length + 2 + k))
        refine ⟨hle.kill i1, ?_, ?_⟩
        · rcases i3 with i3 | i3
          · cases hastySchedule hits.length (4 * hits.length + 2 + k) with
            | consumer => simp [Ring.step, Ring.consumerStep, i3, i1, i2]
            | timer => unfold Ring.step Ring.timerStep; simp only; split_ifs <;> exact i2
            | producer =>
              unfold Ring.step Ring.producerStep
              simp only
              repeat' split
              all_goals exact i2
          · rw [(hle.exited i3).2, i2]
        · rcases i3 with i3 | i3
          · cases hastySchedule hits.length (4 * hits.length + 2 + k) with
            | consumer => right; simp [Ring.step, Ring.consumerStep, i3, i1]
            | timer => left; unfold Ring.step Ring.timerStep; simp only; split_ifs <;> exact i3
            | producer =>
              left
              unfold Ring.step Ring.producerStep
              simp only
              repeat' split
              all_goals exact i3
          · exact Or.inr (hle.exited i3).1
    have e3 : ∃ m, 4 * hits.length + 2 ≤ m ∧ hastySchedule hits.length m = .consumer := by
      refine ⟨3 * (4 * hits.length + 2) + 2, by omega, ?_⟩
      unfold hastySchedule
      rw [if_neg (by omega), if_neg (by omega), if_neg (by omega), if_neg (by omega)]
    obtain ⟨m, hm, ha⟩ := e3
    refine ⟨m + 1, fun j hj => ?_⟩
    have hx : ((Ring.init junk).run hits (hastySchedule hits.length) (m + 1)).cons = .exited := by
      have := hkill m hm
      rcases this.2.2 with h | h
      · simp [Ring.run, ha, Ring.step, Ring.consumerStep, h, this.1]
      · simp [Ring.run, ha, Ring.step, Ring.consumerStep, h]
    refine ⟨((ringLe_run hits (Ring.init junk) _ _ j hj).exited hx).1, (hkill j (by omega)).2.1, ?_⟩
    rw [(hkill j (by omega)).2.1]
    exact fun h => h1 h.symm

/-- The hypotheses of `c54_delivered_partial` hold for turns in the order producer, consumer. -/
example : ∃ n, ∀ m, n ≤ m → ((Ring.init fun _ => 0).run [5, 6, 7]
    (fun n => if n % 2 = 0 then .producer else .consumer) m).got = [5, 6, 7] := by
  refine c54_delivered_partial [5, 6, 7] _ _ (fun n => ⟨2 * n, by omega, ?_⟩) (fun n => ⟨2 * n + 1, by omega, ?_⟩) ?_
  · rw [if_pos (by omega)]
  · rw [if_neg (by omega)]
  · intro n h
    split_ifs at h

/-- Three hits pass through the ring. -/
example : (((Ring.init fun _ => 0).run [5, 6, 7] (fun n => if n % 2 = 0 then .producer else .consumer) 40).got) = [5, 6, 7] := by
  decide

/-- The hypotheses of `c54_false` are met. -/
example : [5, 6, 7] ≠ [] ∧ [5, 6, 7].length ≤ 4095 := by decide

end Verif.Props
