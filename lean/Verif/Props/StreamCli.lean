import Verif.Model.StreamCli
import Verif.Spec.Threads
import Verif.Props.LegacyStream

/-! # The streaming program (C52, C53, C59) -/

namespace Verif.Props

open Verif Verif.Spec

/-! ## C52: delivery -/

/-- The state is one that a run over `hits` can be in. -/
structure StreamInv {α : Type} (hits : List α) (s : StreamSys α) : Prop where
  opened : s.opened = true
  flag : s.flag = true → s.todo = [] ∧ s.readerDone = true
  rdone : s.readerDone = true → s.flag = true
  whole : streamBatch ∣ s.out.flatten.length ∨ s.phase = .finished
  early : (s.phase = .test ∨ s.phase = .tryDequeue) →
    s.out.flatten ++ s.batch ++ s.queue ++ s.todo = hits ∧ s.batch.length < streamBatch
  drain : (s.phase = .drainTest ∨ s.phase = .drainDequeue) →
    s.flag = true ∧ ∃ b, s.out.flatten ++ b ++ (s.batch ++ s.queue) = hits ∧ b.length < streamBatch
  queue : s.phase = .drainDequeue → s.queue ≠ []
  fin : s.phase = .finished → s.flag = true ∧ s.queue = [] ∧ MissesOnlyAStretch streamBatch hits s.out.flatten

theorem StreamInv.init {α : Type} (hits : List α) : StreamInv hits (StreamSys.init true hits) := by
  refine ⟨rfl, ?_, ?_, Or.inl ?_, ?_, ?_, ?_, ?_⟩ <;> simp [StreamSys.init, streamBatch]

theorem StreamInv.reader {α : Type} {hits : List α} {s : StreamSys α} (h : StreamInv hits s) :
    StreamInv hits s.readerStep := by
  unfold StreamSys.readerStep
  by_cases hr : s.readerDone = true
  · rw [if_pos hr]; exact h
  rw [if_neg hr]
  have hf : s.flag ≠ true := fun hf => hr (h.flag hf).2
  rcases ht : s.todo with _ | ⟨x, xs⟩
  · refine ⟨h.opened, ?_, ?_, h.whole, ?_, ?_, h.queue, ?_⟩
    · simp
    · simp [h.opened]
    · intro hp; simpa [ht] using h.early hp
    · intro hp; exact absurd (h.drain hp).1 hf
    · intro hp; exact absurd (h.fin hp).1 hf
  · refine ⟨h.opened, fun c => absurd c hf, fun c => absurd c hr, h.whole, ?_, ?_, ?_, ?_⟩
    · intro hp
      have := h.early hp
      rw [ht] at this
      simpa using this
    · intro hp; exact absurd (h.drain hp).1 hf
    · intro hp; exact absurd (h.drain (Or.inr hp)).1 hf
    · intro hp; exact absurd (h.fin hp).1 hf

theorem StreamInv.proc {α : Type} {hits : List α} {s : StreamSys α} (h : StreamInv hits s) :
    StreamInv hits s.procStep := by
  unfold StreamSys.procStep
  rcases hp : s.phase with _ | _ | _ | _ | _
  · -- test
    have hw : streamBatch ∣ s.out.flatten.length := h.whole.resolve_right (by rw [hp]; simp)
    obtain ⟨e1, e2⟩ := h.early (Or.inl hp)
    simp only
    split_ifs with hf
    · refine ⟨h.opened, h.flag, h.rdone, Or.inl hw, by simp, ?_, by simp, by simp⟩
      intro _
      refine ⟨hf, s.batch, ?_, e2⟩
      rw [(h.flag hf).1] at e1
      simpa using e1
    · exact ⟨h.opened, h.flag, h.rdone, Or.inl hw, fun _ => ⟨e1, e2⟩, by simp, by simp, by simp⟩
  · -- tryDequeue
    have hw : streamBatch ∣ s.out.flatten.length := h.whole.resolve_right (by rw [hp]; simp)
    obtain ⟨e1, e2⟩ := h.early (Or.inr hp)
    rcases hq : s.queue with _ | ⟨x, q⟩
    · refine ⟨h.opened, h.flag, h.rdone, Or.inl hw, fun _ => ?_, by simp, by simp, by simp⟩
      exact ⟨by rw [hq] at e1; simpa [hq] using e1, e2⟩
    · rw [hq] at e1
      simp only
      split_ifs with hb
      · refine ⟨h.opened, h.flag, h.rdone, Or.inl ?_, fun _ => ⟨?_, by simp [streamBatch]⟩, by simp, by simp, by simp⟩
        · have hl : (s.batch ++ [x]).length = streamBatch := by
            rw [List.length_append, List.length_singleton] at hb ⊢; omega
          simp only [List.flatten_append, List.flatten_singleton, List.length_append (as := s.out.flatten)]
          rw [hl]
          exact Dvd.dvd.add hw (dvd_refl _)
        · simpa using e1
      · refine ⟨h.opened, h.flag, h.rdone, Or.inl hw, fun _ => ⟨by simpa using e1, ?_⟩, by simp, by simp, by simp⟩
        simpa using hb
  · -- drainTest
    have hw : streamBatch ∣ s.out.flatten.length := h.whole.resolve_right (by rw [hp]; simp)
    obtain ⟨hf, b, e1, e2⟩ := h.drain (Or.inl hp)
    simp only
    split_ifs with hq hb
    · refine ⟨h.opened, h.flag, h.rdone, Or.inl hw, by simp, fun _ => ⟨hf, b, e1, e2⟩, fun _ => hq, by simp⟩
    · have hq' : s.queue = [] := by simpa using hq
      refine ⟨h.opened, h.flag, h.rdone, Or.inr rfl, by simp, by simp, by simp, fun _ => ⟨hf, hq', ?_⟩⟩
      rw [hq', List.append_nil] at e1
      exact ⟨s.out.flatten, b, s.batch, e1.symm, by simp, e2, hw⟩
    · have hq' : s.queue = [] := by simpa using hq
      have hb' : s.batch = [] := by simpa using hb
      refine ⟨h.opened, h.flag, h.rdone, Or.inr rfl, by simp, by simp, by simp, fun _ => ⟨hf, hq', ?_⟩⟩
      rw [hq', hb', List.append_nil] at e1
      exact ⟨s.out.flatten, b, [], e1.symm, by simp, e2, hw⟩
  · -- drainDequeue
    have hw : streamBatch ∣ s.out.flatten.length := h.whole.resolve_right (by rw [hp]; simp)
    obtain ⟨hf, b, e1, e2⟩ := h.drain (Or.inr hp)
    rcases hq : s.queue with _ | ⟨x, q⟩
    · exact absurd hq (h.queue hp)
    · rw [hq] at e1
      refine ⟨h.opened, h.flag, h.rdone, Or.inl hw, by simp, fun _ => ⟨hf, b, ?_, e2⟩, by simp, by simp⟩
      simpa using e1
  · exact h

theorem StreamInv.run {α : Type} (hits : List α) (sched : Nat → Bool) (n : Nat) :
    StreamInv hits ((StreamSys.init true hits).run sched n) := by
  induction n with
  | zero => exact StreamInv.init hits
  | succ n ih =>
    rw [StreamSys.run]
    split_ifs
    · exact ih.reader
    · exact ih.proc

/-- C52, what holds: whatever the interleaving, when the processor has finished, the hits given to the clustering are
hits of the reader in order, each at most once, and what is missing is one contiguous stretch of fewer than 10000 hits.
Missing for the full claim: `c52_false` shows that the stretch need not be empty. -/
theorem c52_delivery_partial {α : Type} (hits : List α) (sched : Nat → Bool) (n : Nat)
    (h : ((StreamSys.init true hits).run sched n).phase = .finished) :
    MissesOnlyAStretch 10000 hits ((StreamSys.init true hits).run sched n).out.flatten :=
  ((StreamInv.run hits sched n).fin h).2.2

/-- At every moment the batches handed over so far are made of a prefix of the hits, unless the processor has seen the
end flag. -/
theorem c52_prefix {α : Type} (hits : List α) (sched : Nat → Bool) (n : Nat)
    (h : ((StreamSys.init true hits).run sched n).phase = .test ∨
      ((StreamSys.init true hits).run sched n).phase = .tryDequeue) :
    ((StreamSys.init true hits).run sched n).out.flatten <+: hits := by
  have := ((StreamInv.run hits sched n).early h).1
  rw [List.append_assoc, List.append_assoc] at this
  exact ⟨_, this⟩

/-- Reader, processor, processor, and so on. -/
def lossySched (m : Nat) : Bool := m % 3 == 0

theorem lossySched_fair : Fair lossySched := by
  intro b n
  rcases b with _ | _
  · exact ⟨3 * n + 1, by omega, by simp [lossySched]⟩
  · exact ⟨3 * n, by omega, by simp [lossySched]⟩

theorem lossy_state {α : Type} (hits : List α) (k : Nat) (hk : k ≤ hits.length) :
    ∃ batch out, (StreamSys.init true hits).run lossySched (3 * k) =
      ⟨hits.drop k, true, false, false, [], .test, batch, out⟩ ∧ out.flatten ++ batch = hits.take k ∧
      batch.length = k % streamBatch := by
  induction k with
  | zero => exact ⟨[], [], rfl, rfl, rfl⟩
  | succ k ih =>
    obtain ⟨batch, out, h1, h2, h3⟩ := ih (by omega)
    have e0 : lossySched (3 * k) = true := by simp [lossySched]
    have e1 : lossySched (3 * k + 1) = false := by simp [lossySched]
    have e2 : lossySched (3 * k + 2) = false := by simp [lossySched]
    have hd : hits.drop k = hits[k] :: hits.drop (k + 1) := List.drop_eq_getElem_cons (by omega)
    have ht : hits.take (k + 1) = hits.take k ++ [hits[k]] := by rw [List.take_succ_eq_append_getElem]
    have er : (StreamSys.init true hits).run lossySched (3 * (k + 1)) =
        ((⟨hits.drop k, true, false, false, [], .test, batch, out⟩ : StreamSys α).readerStep).procStep.procStep := by
      rw [show 3 * (k + 1) = 3 * k + 1 + 1 + 1 from rfl, StreamSys.run, StreamSys.run, StreamSys.run, e0, e1, e2, h1]
      rfl
    rw [er]
    simp only [StreamSys.readerStep, StreamSys.procStep, hd, Bool.false_eq_true, if_false, List.nil_append]
    by_cases hb : streamBatch ≤ (batch ++ [hits[k]]).length
    · refine ⟨[], out ++ [batch ++ [hits[k]]], by rw [if_pos hb], ?_, ?_⟩
      · rw [ht, ← h2]; simp
      · rw [List.length_append, List.length_singleton, h3] at hb
        unfold streamBatch at *
        simp only [List.length_nil]
        omega
    · refine ⟨batch ++ [hits[k]], out, by rw [if_neg hb], ?_, ?_⟩
      · rw [ht, ← h2]; simp
      · rw [List.length_append, List.length_singleton, h3] at hb ⊢
        unfold streamBatch at *
        omega

/-- C52 is false: for every sequence of hits whose number is not a multiple of 10000 there is a fair interleaving
after which both threads have ended and the last incomplete batch has been thrown away (the `batch.clear()` at line 156).
A file with fewer than 10000 hits then gives no event at all. -/
theorem c52_false {α : Type} (hits : List α) (h : ¬ 10000 ∣ hits.length) :
    ∃ sched n, Fair sched ∧ ((StreamSys.init true hits).run sched n).phase = .finished ∧
      ((StreamSys.init true hits).run sched n).readerDone = true ∧
      ((StreamSys.init true hits).run sched n).out.flatten = hits.take (hits.length - hits.length % 10000) ∧
      ((StreamSys.init true hits).run sched n).out.flatten ≠ hits := by
  obtain ⟨batch, out, h1, h2, h3⟩ := lossy_state hits hits.length le_rfl
  have e0 : lossySched (3 * hits.length) = true := by simp [lossySched]
  have e1 : lossySched (3 * hits.length + 1) = false := by simp [lossySched]
  have e2 : lossySched (3 * hits.length + 2) = false := by simp [lossySched]
  have er : (StreamSys.init true hits).run lossySched (3 * hits.length + 3) =
      ⟨[], true, true, true, [], .finished, [], out⟩ := by
    rw [StreamSys.run, StreamSys.run, StreamSys.run, e0, e1, e2, h1, List.drop_length]
    rfl
  rw [List.take_length] at h2
  have hl : out.flatten = hits.take (hits.length - hits.length % 10000) := by
    have hb : hits.length = out.flatten.length + hits.length % 10000 := by
      have := congrArg List.length h2
      rw [List.length_append, h3] at this
      exact this.symm
    have hn : hits.length - hits.length % 10000 = out.flatten.length := by omega
    rw [hn]
    conv_rhs => rw [← h2]
    simp
  refine ⟨lossySched, 3 * hits.length + 3, lossySched_fair, by rw [er], by rw [er], by rw [er]; exact hl, ?_⟩
  rw [er]
  intro hc
  have : out.flatten = hits := hc
  rw [this] at hl
  have := congrArg List.length hl
  rw [List.length_take] at this
  have : hits.length % 10000 = 0 := by omega
  omega

example : ¬ 10000 ∣ ([defaultHit, defaultHit, defaultHit] : List Hit).length := by decide

/-- A single batch, or none for no hits. -/
def oneBatch {α : Type} (hits : List α) : List (List α) := if hits = [] then [] else [hits]

/-- If the reader is through before the processor starts, all hits come in one batch, however many they are. -/
theorem c52_reader_batch {α : Type} (hits : List α) (sched : Nat → Bool) (n : Nat)
    (hs : ∀ m, m ≤ hits.length → sched m = true)
    (h : ((StreamSys.init true hits).run sched n).phase = .finished) :
    ((StreamSys.init true hits).run sched n).out = oneBatch hits := by
  have hr : ∀ k, k ≤ hits.length → (StreamSys.init true hits).run sched k =
      ⟨hits.drop k, true, false, false, hits.take k, .test, [], []⟩ := by
    intro k hk
    induction k with
    | zero => simp [StreamSys.run, StreamSys.init]
    | succ k ih =>
      have hd : hits.drop k = hits[k] :: hits.drop (k + 1) := List.drop_eq_getElem_cons (by omega)
      have ht : hits.take (k + 1) = hits.take k ++ [hits[k]] := by rw [List.take_succ_eq_append_getElem]
      rw [StreamSys.run, hs k (by omega), ih (by omega)]
      simp only [StreamSys.readerStep, hd, ht, if_true, Bool.false_eq_true, if_false]
  have h1 : (StreamSys.init true hits).run sched (hits.length + 1) =
      ⟨[], true, true, true, hits, .test, [], []⟩ := by
    rw [StreamSys.run, hs _ le_rfl, hr _ le_rfl, List.drop_length, List.take_length]
    rfl
  -- from there on only the draining loop runs
  have h2 : ∀ m, ((StreamSys.init true hits).run sched (hits.length + 1 + m)).readerDone = true ∧
      ((StreamSys.init true hits).run sched (hits.length + 1 + m)).flag = true ∧
      (((StreamSys.init true hits).run sched (hits.length + 1 + m)).phase ≠ .tryDequeue) ∧
      (((StreamSys.init true hits).run sched (hits.length + 1 + m)).phase ≠ .finished →
        ((StreamSys.init true hits).run sched (hits.length + 1 + m)).out = [] ∧
        ((StreamSys.init true hits).run sched (hits.length + 1 + m)).batch ++
        ((StreamSys.init true hits).run sched (hits.length + 1 + m)).queue = hits ∧
        (((StreamSys.init true hits).run sched (hits.length + 1 + m)).phase = .test →
          ((StreamSys.init true hits).run sched (hits.length + 1 + m)).batch = [])) ∧
      (((StreamSys.init true hits).run sched (hits.length + 1 + m)).phase = .finished →
        ((StreamSys.init true hits).run sched (hits.length + 1 + m)).out = oneBatch hits) := by
    intro m
    induction m with
    | zero => rw [Nat.add_zero, h1]; simp
    | succ m ih =>
      rw [← Nat.add_assoc, StreamSys.run]
      generalize (StreamSys.init true hits).run sched (hits.length + 1 + m) = s at ih
      obtain ⟨i1, i2, i3, i4, i5⟩ := ih
      split_ifs with hb
      · rw [StreamSys.readerStep, if_pos i1]; exact ⟨i1, i2, i3, i4, i5⟩
      · unfold StreamSys.procStep
        rcases hp : s.phase with _ | _ | _ | _ | _
        · obtain ⟨j1, j2, j3⟩ := i4 (by rw [hp]; simp)
          have j3 := j3 hp
          simp only
          rw [if_pos i2]
          refine ⟨i1, i2, by simp, fun _ => ⟨j1, ?_, by simp⟩, by simp⟩
          rw [j3] at j2; exact j2
        · exact absurd hp i3
        · obtain ⟨j1, j2, -⟩ := i4 (by rw [hp]; simp)
          simp only
          split_ifs with hq hb
          · exact ⟨i1, i2, by simp, fun _ => ⟨j1, j2, by simp⟩, by simp⟩
          · refine ⟨i1, i2, by simp, by simp, fun _ => ?_⟩
            have hq' : s.queue = [] := by simpa using hq
            rw [hq', List.append_nil] at j2
            rw [oneBatch, if_neg (by rw [← j2]; exact hb)]
            simp [j1, j2]
          · refine ⟨i1, i2, by simp, by simp, fun _ => ?_⟩
            have hq' : s.queue = [] := by simpa using hq
            have hb' : s.batch = [] := by simpa using hb
            rw [hq', hb'] at j2
            simp [j1, ← j2, oneBatch]
        · obtain ⟨j1, j2, -⟩ := i4 (by rw [hp]; simp)
          rcases hq : s.queue with _ | ⟨x, q⟩
          · exact ⟨i1, i2, i3, i4, i5⟩
          · rw [hq] at j2
            exact ⟨i1, i2, by simp, fun _ => ⟨j1, by simpa using j2, by simp⟩, by simp⟩
        · exact ⟨i1, i2, i3, i4, i5⟩
  rcases Nat.lt_or_ge n (hits.length + 1) with hn | hn
  · rw [hr n (by omega)] at h
    simp at h
  · obtain ⟨m, rfl⟩ := Nat.exists_eq_add_of_le hn
    exact (h2 m).2.2.2.2 h

/-- If the reader is through before the processor starts, nothing is lost. -/
theorem c52_reader_first {α : Type} (hits : List α) (sched : Nat → Bool) (n : Nat)
    (hs : ∀ m, m ≤ hits.length → sched m = true)
    (h : ((StreamSys.init true hits).run sched n).phase = .finished) :
    ((StreamSys.init true hits).run sched n).out.flatten = hits := by
  rw [c52_reader_batch hits sched n hs h, oneBatch]
  split_ifs with h0
  · exact h0.symm
  · simp

/-! ## C53: termination -/

/-- A quantity that never grows and shrinks at every turn of a thread reaches zero under a fair schedule. -/
theorem fair_reaches_zero (sched : Nat → Bool) (hf : Fair sched) (b : Bool) (φ : Nat → Nat) (n : Nat)
    (hm : ∀ m, n ≤ m → φ (m + 1) ≤ φ m) (hd : ∀ m, n ≤ m → sched m = b → φ m ≠ 0 → φ (m + 1) < φ m) :
    ∃ m, n ≤ m ∧ φ m = 0 := by
  have mono : ∀ k m, n ≤ m → φ (m + k) ≤ φ m := by
    intro k
    induction k with
    | zero => intro m _; simp
    | succ k ih => intro m h; exact le_trans (hm (m + k) (by omega)) (ih m h)
  have key : ∀ v m, n ≤ m → φ m ≤ v → ∃ m', n ≤ m' ∧ φ m' = 0 := by
    intro v
    induction v with
    | zero => intro m h hv; exact ⟨m, h, by omega⟩
    | succ v ih =>
      intro m h hv
      by_cases hz : φ m = 0
      · exact ⟨m, h, hz⟩
      obtain ⟨m', h1, h2⟩ := hf b m
      obtain ⟨k, rfl⟩ := Nat.exists_eq_add_of_le h1
      have h3 := mono k m h
      by_cases hz' : φ (m + k) = 0
      · exact ⟨m + k, by omega, hz'⟩
      · exact ih (m + k + 1) (by omega) (by have := hd (m + k) (by omega) h2 hz'; omega)
  exact key _ n le_rfl le_rfl

/-- Steps the reader still has to take. -/
def readerLeft {α : Type} (s : StreamSys α) : Nat := s.todo.length + if s.readerDone then 0 else 1

theorem readerLeft_reader {α : Type} (s : StreamSys α) (h : s.readerDone = true → s.todo = []) :
    readerLeft s.readerStep ≤ readerLeft s ∧ (readerLeft s ≠ 0 → readerLeft s.readerStep < readerLeft s) := by
  unfold StreamSys.readerStep
  by_cases hr : s.readerDone = true
  · rw [if_pos hr]
    exact ⟨le_rfl, fun hz => absurd (by simp [readerLeft, hr, h hr]) hz⟩
  · rw [if_neg hr]
    rcases ht : s.todo with _ | ⟨x, xs⟩ <;> simp [readerLeft, ht, hr]

theorem readerLeft_proc {α : Type} (s : StreamSys α) :
    readerLeft s.procStep = readerLeft s ∧ s.procStep.readerDone = s.readerDone ∧ s.procStep.flag = s.flag := by
  unfold StreamSys.procStep
  rcases hp : s.phase with _ | _ | _ | _ | _
  · simp only; split_ifs <;> exact ⟨rfl, rfl, rfl⟩
  · rcases hq : s.queue with _ | ⟨x, q⟩
    · exact ⟨rfl, rfl, rfl⟩
    · simp only; split_ifs <;> exact ⟨rfl, rfl, rfl⟩
  · simp only; split_ifs <;> exact ⟨rfl, rfl, rfl⟩
  · rcases hq : s.queue with _ | ⟨x, q⟩ <;> exact ⟨rfl, rfl, rfl⟩
  · exact ⟨rfl, rfl, rfl⟩

/-- Bound on the steps the processor still has to take once the end flag is up. -/
def procLeft {α : Type} (s : StreamSys α) : Nat :=
  2 * s.queue.length + match s.phase with
    | .test => 2
    | .tryDequeue => 3
    | .drainTest => 1
    | .drainDequeue => 0
    | .finished => 0

theorem procLeft_proc {α : Type} {hits : List α} {s : StreamSys α} (h : StreamInv hits s) (hf : s.flag = true)
    (hz : procLeft s ≠ 0) : procLeft s.procStep < procLeft s := by
  unfold StreamSys.procStep procLeft at *
  rcases hp : s.phase with _ | _ | _ | _ | _
  · simp only
    rw [if_pos hf]
    simp only; omega
  · rcases hq : s.queue with _ | ⟨x, q⟩
    · simp
    · simp only; split_ifs <;> simp <;> omega
  · simp only
    split_ifs with hq hb <;> simp only <;> omega
  · rcases hq : s.queue with _ | ⟨x, q⟩
    · exact absurd hq (h.queue hp)
    · simp; omega
  · rw [hp, (h.fin hp).2.1] at hz
    simp at hz

theorem procLeft_zero {α : Type} {hits : List α} {s : StreamSys α} (h : StreamInv hits s) (hz : procLeft s = 0) :
    s.phase = .finished := by
  unfold procLeft at hz
  rcases hp : s.phase with _ | _ | _ | _ | _ <;> rw [hp] at hz <;> simp at hz
  exact absurd hz (h.queue hp)

/-- C53, what holds: for a file that can be opened both threads end under every fair schedule, whatever hits the reader
produces.  Missing for the full claim: a file that cannot be opened, see `c53_false_unopened`. -/
theorem c53_terminates_partial {α : Type} (hits : List α) (sched : Nat → Bool) (hf : Fair sched) :
    ∃ n, ∀ m, n ≤ m → ((StreamSys.init true hits).run sched m).readerDone = true ∧
      ((StreamSys.init true hits).run sched m).phase = .finished := by
  have inv := StreamInv.run hits sched
  -- the reader ends
  have hrm : ∀ m, (sched m = true → readerLeft ((StreamSys.init true hits).run sched (m + 1)) =
      readerLeft ((StreamSys.init true hits).run sched m).readerStep) ∧ (sched m = false →
      readerLeft ((StreamSys.init true hits).run sched (m + 1)) =
      readerLeft ((StreamSys.init true hits).run sched m)) := by
    intro m
    constructor
    · intro hs; rw [StreamSys.run, hs]; rfl
    · intro hs
      rw [StreamSys.run, hs]
      exact (readerLeft_proc _).1
  have hrd : ∀ m, ((StreamSys.init true hits).run sched m).readerDone = true →
      ((StreamSys.init true hits).run sched m).todo = [] :=
    fun m h => ((inv m).flag ((inv m).rdone h)).1
  obtain ⟨n₁, -, h1⟩ := fair_reaches_zero sched hf true
    (fun m => readerLeft ((StreamSys.init true hits).run sched m)) 0
    (by
      intro m _
      rcases hs : sched m with _ | _
      · exact le_of_eq ((hrm m).2 hs)
      · rw [(hrm m).1 hs]; exact (readerLeft_reader _ (hrd m)).1)
    (by
      intro m _ hs hz
      rw [(hrm m).1 hs]; exact (readerLeft_reader _ (hrd m)).2 hz)
  have hdone : ∀ k, ((StreamSys.init true hits).run sched (n₁ + k)).readerDone = true := by
    intro k
    induction k with
    | zero =>
      by_contra hc
      simp only [readerLeft, Nat.add_zero] at h1 hc
      rw [if_neg hc] at h1
      omega
    | succ k ih =>
      rw [← Nat.add_assoc, StreamSys.run]
      split_ifs
      · rw [StreamSys.readerStep, if_pos ih]; exact ih
      · rw [(readerLeft_proc _).2.1]; exact ih
  -- then the processor ends
  have hfl : ∀ m, n₁ ≤ m → ((StreamSys.init true hits).run sched m).readerDone = true := by
    intro m hm
    obtain ⟨k, rfl⟩ := Nat.exists_eq_add_of_le hm
    exact hdone k
  have hpm : ∀ m, n₁ ≤ m → sched m = true → (StreamSys.init true hits).run sched (m + 1) =
      (StreamSys.init true hits).run sched m := by
    intro m hm hs
    rw [StreamSys.run, hs, if_pos rfl, StreamSys.readerStep, if_pos (hfl m hm)]
  have hpp : ∀ m, sched m = false → (StreamSys.init true hits).run sched (m + 1) =
      ((StreamSys.init true hits).run sched m).procStep := by
    intro m hs
    rw [StreamSys.run, hs]; rfl
  have hstay : ∀ m, procLeft ((StreamSys.init true hits).run sched m) = 0 →
      ((StreamSys.init true hits).run sched m).procStep = (StreamSys.init true hits).run sched m := by
    intro m hz
    rw [StreamSys.procStep, procLeft_zero (inv m) hz]
  obtain ⟨n₂, hn, h2⟩ := fair_reaches_zero sched hf false
    (fun m => procLeft ((StreamSys.init true hits).run sched m)) n₁
    (by
      intro m hm
      rcases hs : sched m with _ | _
      · rw [hpp m hs]
        by_cases hz : procLeft ((StreamSys.init true hits).run sched m) = 0
        · rw [hstay m hz]
        · exact le_of_lt (procLeft_proc (inv m) ((inv m).rdone (hfl m hm)) hz)
      · rw [hpm m hm hs])
    (by
      intro m hm hs hz
      rw [hpp m hs]
      exact procLeft_proc (inv m) ((inv m).rdone (hfl m hm)) hz)
  refine ⟨n₂, fun m hm => ⟨hfl m (by omega), ?_⟩⟩
  obtain ⟨k, rfl⟩ := Nat.exists_eq_add_of_le hm
  induction k with
  | zero => exact procLeft_zero (inv n₂) h2
  | succ k ih =>
    have ih := ih (by omega)
    rw [← Nat.add_assoc]
    rcases hs : sched (n₂ + k) with _ | _
    · rw [hpp _ hs, StreamSys.procStep, ih]; exact ih
    · rw [hpm _ (by omega) hs]; exact ih

example : Fair lossySched := lossySched_fair

/-- C53 is false for a file that cannot be opened: the reader returns without raising the flag and the processor spins
for ever, under every schedule. -/
theorem c53_false_unopened {α : Type} (hits : List α) (sched : Nat → Bool) (n : Nat) :
    ((StreamSys.init false hits).run sched n).phase ≠ .finished := by
  have h : ((StreamSys.init false hits).run sched n).opened = false ∧
      ((StreamSys.init false hits).run sched n).flag = false ∧
      (((StreamSys.init false hits).run sched n).phase = .test ∨
        ((StreamSys.init false hits).run sched n).phase = .tryDequeue) := by
    induction n with
    | zero => exact ⟨rfl, rfl, Or.inl rfl⟩
    | succ n ih =>
      rw [StreamSys.run]
      generalize (StreamSys.init false hits).run sched n = s at ih
      obtain ⟨h1, h2, h3⟩ := ih
      split_ifs
      · unfold StreamSys.readerStep
        split_ifs
        · exact ⟨h1, h2, h3⟩
        · rcases s.todo with _ | ⟨x, xs⟩
          · exact ⟨h1, by simp [h1, h2], h3⟩
          · exact ⟨h1, h2, h3⟩
      · unfold StreamSys.procStep
        rcases h3 with hp | hp <;> rw [hp]
        · simp only
          rw [if_neg (by simp [h2])]
          exact ⟨h1, h2, Or.inr rfl⟩
        · rcases s.queue with _ | ⟨x, q⟩
          · exact ⟨h1, h2, Or.inl rfl⟩
          · simp only
            split_ifs <;> exact ⟨h1, h2, Or.inl rfl⟩
  rcases h.2.2 with h | h <;> rw [h] <;> simp

/-! ### The reader's own loop -/

/-- Rounds the reader's loop can still make. -/
def roundsLeft (f : IStream) : Nat := if f.eof then 0 else (f.file.length - f.pos) / 8 + 1

theorem read8_rounds (junk : Nat → U64) (f : IStream) :
    roundsLeft (f.read8 junk).2 ≤ roundsLeft f ∧ (f.eof = false → roundsLeft (f.read8 junk).2 < roundsLeft f) := by
  unfold IStream.read8 roundsLeft
  rcases he : f.eof with _ | _
  · simp only [Bool.false_eq_true, if_false]
    split_ifs with h1 h2 h2
    · simp at h2
    · simp only; constructor <;> omega
    · simp
    · simp at h2
  · simp

theorem streamPackets'_rounds (junk : Nat → U64) (chip : Int) (n : Nat) (f : IStream) (s : StreamState)
    (f' : IStream) (s' : StreamState) (h : streamPackets' junk chip n f s = .ok (f', s')) :
    roundsLeft f' ≤ roundsLeft f := by
  induction n generalizing f s with
  | zero =>
    rw [streamPackets'] at h
    injection h with h
    injection h with h1 h2
    rw [h1]
  | succ n ih =>
    rw [streamPackets'] at h
    rcases hp : streamPacket chip (f.read8 junk).1 s with s1 | e | u <;> rw [hp] at h <;> simp only [Res.bind] at h
    · exact le_trans (ih _ _ h) (read8_rounds junk f).1
    · cases h
    · cases h

theorem streamLoop_ends (junk : Nat → U64) (fuel : Nat) (f : IStream) (s : StreamState) (h : roundsLeft f ≤ fuel) :
    streamLoop junk fuel f s ≠ .ok none := by
  induction fuel generalizing f s with
  | zero =>
    have he : f.eof = true := by
      by_contra hc
      simp only [roundsLeft, if_neg hc] at h
      omega
    rw [streamLoop, if_pos he]
    intro hc; cases hc
  | succ fuel ih =>
    rw [streamLoop]
    rcases he : f.eof with _ | _
    · have hr := (read8_rounds junk f).2 he
      simp only [Bool.false_eq_true, if_false]
      split_ifs with hh
      · rcases hp : streamPackets' junk (byteOf (f.read8 junk).1 4).toNat (headerPackets (f.read8 junk).1)
          (f.read8 junk).2 s with x | e | u
        · simp only [Res.bind]
          exact ih _ _ (by have := streamPackets'_rounds _ _ _ _ _ _ _ hp; omega)
        · simp [Res.bind]
        · simp [Res.bind]
      · exact ih _ _ (by omega)
    · simp

/-- C53 for the reader's own loop: it ends for every file, whatever the unfilled arrays hold. -/
theorem c53_reader (junk : Nat → U64) (file : Bytes) : streamReader junk file ≠ .ok none := by
  unfold streamReader
  have h := streamLoop_ends junk (file.length / 8 + 2) ⟨file, 0, false, 0⟩ ⟨Clock.zero, []⟩
    (by simp [roundsLeft])
  rcases hl : streamLoop junk (file.length / 8 + 2) ⟨file, 0, false, 0⟩ ⟨Clock.zero, []⟩ with r | e | u
  · rcases r with _ | r
    · exact absurd hl h
    · simp [Res.bind]
  · simp [Res.bind]
  · simp [Res.bind]

/-! ## C59: the hits the reader puts into the queue -/

def streamAll : List (Int × U64) → StreamState → Res StreamState
  | [], s => .ok s
  | p :: ps, s => (streamPacket p.1 p.2 s).bind fun s' => streamAll ps s'

theorem streamAll_append (ps qs : List (Int × U64)) (s : StreamState) :
    streamAll (ps ++ qs) s = (streamAll ps s).bind fun s' => streamAll qs s' := by
  induction ps generalizing s with
  | nil => rfl
  | cons p ps ih =>
    rw [List.cons_append, streamAll, streamAll]
    rcases streamPacket p.1 p.2 s with s' | e | u <;> simp only [Res.bind]
    exact ih s'

theorem read8_word (junk : Nat → U64) (buf : Bytes) (pos reads : Nat) (w : U64) (ws : List U64)
    (h : wordsOf (buf.drop pos) = w :: ws) :
    IStream.read8 junk ⟨buf, pos, false, reads⟩ = (w, ⟨buf, pos + 8, false, reads + 1⟩) ∧ pos + 8 ≤ buf.length := by
  have hl := wordsOf_length (buf.drop pos)
  rw [h, List.length_cons, List.length_drop] at hl
  have hp : pos + 8 ≤ buf.length := by omega
  have hw := wordsOf_cons (buf.drop pos) (by rw [List.length_drop]; omega)
  rw [h] at hw
  refine ⟨?_, hp⟩
  rw [IStream.read8]
  simp only [Bool.false_eq_true, if_false]
  rw [if_pos hp, (List.cons.inj hw).1]
  rfl

theorem streamPackets'_words (junk : Nat → U64) (chip : Int) (ps ws : List U64) (buf : Bytes) (pos reads : Nat)
    (s : StreamState) (h : wordsOf (buf.drop pos) = ps ++ ws) :
    streamPackets' junk chip ps.length ⟨buf, pos, false, reads⟩ s =
      (streamAll (ps.map fun w => (chip, w)) s).bind fun s' =>
        .ok (⟨buf, pos + 8 * ps.length, false, reads + ps.length⟩, s') := by
  induction ps generalizing pos reads s with
  | nil => rfl
  | cons p ps ih =>
    obtain ⟨h1, h2⟩ := read8_word junk buf pos reads p (ps ++ ws) h
    rw [List.length_cons, streamPackets', h1, List.map_cons, streamAll]
    rcases streamPacket chip p s with s' | e | u <;> simp only [Res.bind]
    have h3 : wordsOf (buf.drop (pos + 8)) = ps ++ ws := by
      have := wordsOf_drop (buf.drop pos) 1
      rw [h, List.drop_drop] at this
      exact this
    rw [ih (pos + 8) (reads + 1) s' h3]
    have e1 : pos + 8 + 8 * ps.length = pos + 8 * (ps.length + 1) := by omega
    have e2 : reads + 1 + ps.length = reads + (ps.length + 1) := by omega
    rw [e1, e2]
    rfl

/-- Tagged packets as the stream program sees them: chip ids are not negative. -/
def queuePackets (cs : List Chunk) : List (Int × U64) :=
  cs.flatMap fun c => c.packets.map fun w => ((field c.header 32 8 : Int), w)

theorem streamLoop_stream (junk : Nat → U64) (cs : List Chunk) (hcs : ∀ c ∈ cs, c.WellFormed) (buf : Bytes)
    (fuel pos reads : Nat) (s : StreamState) (hf : (buf.length - pos) / 8 + 1 < fuel)
    (h : buf.drop pos = streamBytes cs) (hp : pos ≤ buf.length)
    (hj : ¬ StartsTPX (junk (reads + (streamWords cs).length))) :
    streamLoop junk fuel ⟨buf, pos, false, reads⟩ s =
      (streamAll (queuePackets cs) s).bind fun s' => .ok (some s') := by
  induction cs generalizing fuel pos reads s with
  | nil =>
    have hl : (buf.drop pos).length = 0 := by rw [h]; rfl
    rw [List.length_drop] at hl
    rcases fuel with _ | _ | fuel
    · omega
    · omega
    · have hr : IStream.read8 junk ⟨buf, pos, false, reads⟩ = (junk reads, ⟨buf, buf.length, true, reads + 1⟩) := by
        rw [IStream.read8]
        simp only [Bool.false_eq_true, if_false]
        rw [if_neg (by omega), h]
        have : mixWord (streamBytes []) (junk reads) = junk reads := by
          have := headWord_bytesOf (junk reads) []
          rw [List.append_nil, headWord, List.take_of_length_le (by rw [bytesOf_length])] at this
          exact this
        rw [this]
      rw [streamLoop, hr]
      simp only [Bool.false_eq_true, if_false]
      have hh : ¬ isHeader (junk reads) = true := by
        rw [isHeader_iff_starts]
        exact hj
      rw [if_neg hh, streamLoop]
      simp [queuePackets, streamAll, Res.bind]
  | cons c cs ih =>
    obtain ⟨h1, h2, h3, h4⟩ := drop_stream buf pos c cs h
    have hc := hcs c (by simp)
    rcases fuel with _ | fuel
    · omega
    · obtain ⟨r1, r2⟩ := read8_word junk buf pos reads c.header _ h1
      rw [streamLoop, r1]
      simp only [Bool.false_eq_true, if_false]
      have hn : headerPackets c.header = c.packets.length := by
        rw [headerPackets_field, hc.2, Nat.mul_div_cancel_left _ (by omega)]
      have hchip : ((byteOf c.header 4).toNat : Int) = (field c.header 32 8 : Int) := by
        congr 1
        unfold byteOf field
        simp [Nat.shiftRight_eq_div_pow]
      have hq : queuePackets (c :: cs) = c.packets.map (fun w => ((field c.header 32 8 : Int), w)) ++
          queuePackets cs := by simp [queuePackets]
      rw [if_pos ((isHeader_iff_starts _).mpr hc.1), hn, hchip, streamPackets'_words junk _ c.packets _ buf (pos + 8)
        (reads + 1) s h2, hq, streamAll_append]
      rcases streamAll (c.packets.map fun w => ((field c.header 32 8 : Int), w)) s with s' | e | u <;>
        simp only [Res.bind]
      have e1 : pos + 8 + 8 * c.packets.length = pos + 8 * c.packets.length + 8 := by omega
      rw [e1]
      refine ih (fun d hd => hcs d (by simp [hd])) _ _ _ _ ?_ h3 (by omega) ?_
      · omega
      · rw [streamWords_cons, List.length_cons, List.length_append] at hj
        have e2 : reads + 1 + c.packets.length + (streamWords cs).length =
          reads + (c.packets.length + (streamWords cs).length + 1) := by omega
        rw [e2]
        exact hj

/-- No hit packet arrives (by the reader's clock) before the trigger in force. -/
def HitsAfterTrigger : Times → List (Int × U64) → Prop
  | _, [] => True
  | t, p :: ps => (IsHitPacket p.2 → t.tdc ≤ legacyArrival p.2 t.gdc) ∧ HitsAfterTrigger (nextL p.2 t) ps

theorem streamPacket_parse (chip : Int) (w : U64) (s : LegacyState)
    (h : IsHitPacket w → s.clock.times.tdc ≤ legacyArrival w s.clock.times.gdc) :
    streamPacket chip w ⟨s.clock, s.hits⟩ = .ok ⟨(parsePacket chip w s).clock, (parsePacket chip w s).hits⟩ := by
  unfold streamPacket parsePacket
  by_cases h1 : isTdc w = true
  · rw [if_pos h1, if_pos h1]
  · rw [if_neg h1, if_neg h1]
    by_cases h2 : isGdc w = true
    · rw [if_pos h2, if_pos h2]
    · rw [if_neg h2, if_neg h2]
      by_cases h3 : isHit w = true
      · rw [if_pos h3, if_pos h3]
        have h4 := h ((isHit_iff w).mp h3)
        simp only
        rw [(c49_after_trigger w s.clock.tdc s.clock.gdc chip h4).1]
        rfl
      · rw [if_neg h3, if_neg h3]

theorem streamAll_parse (ps : List (Int × U64)) (s : LegacyState) (hc : s.clock.timer.toNat < 2 ^ 32)
    (h : HitsAfterTrigger s.clock.times ps) :
    streamAll ps ⟨s.clock, s.hits⟩ = .ok ⟨(parseAll ps s).clock, (parseAll ps s).hits⟩ := by
  induction ps generalizing s with
  | nil => rfl
  | cons p ps ih =>
    obtain ⟨h1, h2, -⟩ := parsePacket_spec p.1 p.2 s hc
    rw [streamAll, streamPacket_parse p.1 p.2 s h.1]
    simp only [Res.bind]
    exact ih _ h2 (by rw [h1]; exact h.2)

theorem legacyHit_chip (w tdc gdc : U64) (a b : Int) (h0 : a = 0 ↔ b = 0) (h1 : a = 1 ↔ b = 1) (h2 : a = 2 ↔ b = 2) :
    legacyHit w tdc gdc a = legacyHit w tdc gdc b := by
  have hf : legacyFields w a = legacyFields w b := by
    unfold legacyFields
    simp only [h0, h1, h2]
  unfold legacyHit legacySpider
  rw [hf]

theorem passL_chips (t : Times) (ps qs : List (Int × U64)) (h : List.Forall₂ (fun p q => p.2 = q.2 ∧ (p.1 = 0 ↔ q.1 = 0) ∧
    (p.1 = 1 ↔ q.1 = 1) ∧ (p.1 = 2 ↔ q.1 = 2)) ps qs) : passL t ps = passL t qs := by
  induction h generalizing t with
  | nil => rfl
  | cons h _ ih =>
    obtain ⟨h1, h2, h3, h4⟩ := h
    rw [passL, passL, ih, h1, legacyHit_chip _ _ _ _ _ h2 h3 h4]

theorem passL_queue (t : Times) (cs : List Chunk) : passL t (queuePackets cs) = passL t (chunkPackets cs) := by
  apply passL_chips
  unfold queuePackets chunkPackets
  induction cs with
  | nil => exact .nil
  | cons c cs ih =>
    rw [List.flatMap_cons, List.flatMap_cons]
    refine List.rel_append ?_ ih
    rw [List.forall₂_map_left_iff, List.forall₂_map_right_iff]
    refine List.forall₂_same.mpr fun w _ => ⟨rfl, ?_⟩
    have hlt : field c.header 32 8 < 256 := by unfold field; omega
    unfold headerChipId
    simp only
    split_ifs <;> omega

/-- C59, what holds: on every complete stream whose hits all come after the trigger in force, the streaming reader puts
exactly the hits into the queue that `parseRawBytesToHits` returns, in order, provided that the array of the last read,
which fails, does not happen to hold the three bytes of a header.  Missing: without these conditions it does not,
`c59_false_end`, `c59_false_truncated` and `c59_false_early`. -/
theorem c59_stream_partial (junk : Nat → U64) (cs : List Chunk) (h : ∀ c ∈ cs, c.WellFormed)
    (hj : ¬ StartsTPX (junk (streamWords cs).length)) (ht : HitsAfterTrigger ⟨0, 0, 0⟩ (queuePackets cs)) :
    ∃ hits, streamReader junk (streamBytes cs) = .ok (some hits) ∧ parseRawBytesToHits (streamBytes cs) = .ok hits ∧
      List.Forall₂ (fun h p => Decodes p.2 p.1 h) hits ((chunkPackets cs).filter fun p => IsHitPacket p.2) := by
  refine ⟨_, ?_, c56_parse cs h, passL_pixels _ _⟩
  unfold streamReader
  rw [streamLoop_stream junk cs h (streamBytes cs) _ 0 0 _ (by omega) (List.drop_zero ..) (by omega) (by rwa [Nat.zero_add])]
  have := streamAll_parse (queuePackets cs) LegacyState.init (by decide) ht
  have e : (⟨Clock.zero, []⟩ : StreamState) = ⟨LegacyState.init.clock, LegacyState.init.hits⟩ := rfl
  rw [e, this]
  simp only [Res.bind, Option.map_some]
  rw [parseAll_hits _ _ (by decide), ← passL_queue]
  rfl

/-- A stream as in the theorem: a global time, a trigger, and a hit after it. -/
def queueStream : List Chunk :=
  [⟨0x0020000033585054#64, [0x4400000000010000#64, 0x4500000000000000#64, 0x6F00000000005000#64, 0xB000000000000001#64]⟩]

example : (∀ c ∈ queueStream, c.WellFormed) ∧ ¬ StartsTPX 0#64 ∧ HitsAfterTrigger ⟨0, 0, 0⟩ (queuePackets queueStream) ∧
    ((chunkPackets queueStream).filter fun p => IsHitPacket p.2).length = 1 := by
  refine ⟨by decide, by decide, ?_, by decide⟩
  simp only [queueStream, queuePackets, HitsAfterTrigger, List.flatMap_cons, List.flatMap_nil, List.map_cons,
    List.map_nil, List.append_nil]
  decide

/-- Contents of the unfilled arrays: a header for one packet, then a hit packet. -/
def badJunk (n : Nat) : U64 := if n = 0 then 0x0008000033585054#64 else 0xB000000000000001#64

/-- C59 is false: what is put into the queue depends on uninitialised memory.  After the last word of the file the loop
reads once more, fails, and looks at the array nevertheless; even an empty file can so give a hit. -/
theorem c59_false_end : ∃ h, streamReader badJunk [] = .ok (some [h]) ∧
    streamReader (fun _ => 0#64) [] = .ok (some []) :=
  ⟨legacyHit 0xB000000000000001#64 0 0 0, by rfl, by rfl⟩

/-- C59 is false for a batch that is cut short: if the array still holds the packet before, the hit is repeated. -/
theorem c59_false_truncated : ∃ h, streamReader (fun _ => 0xB000000000000001#64)
    (bytesOf 0x0010000033585054#64 ++ bytesOf 0xB000000000000001#64) = .ok (some [h, h]) :=
  ⟨legacyHit 0xB000000000000001#64 0 0 0, by rfl⟩

/-- C59 is false on complete streams: a hit before the trigger in force makes `packetToHit` convert a number out of
range to `unsigned int`. -/
theorem c59_false_early (junk : Nat → U64) (hj : ¬ StartsTPX (junk 3)) :
    streamReader junk (streamBytes [⟨0x0010000033585054#64, [0x6F00000004E20000#64, 0xB000000000000001#64]⟩]) =
      .ub .floatToInt := by
  unfold streamReader
  have hl := streamLoop_stream junk [⟨0x0010000033585054#64, [0x6F00000004E20000#64, 0xB000000000000001#64]⟩] (by decide)
    _ _ 0 0 ⟨Clock.zero, []⟩ (Nat.lt_succ_self _) (List.drop_zero ..) (by omega) hj
  rw [Nat.sub_zero] at hl
  rw [hl]
  have h : packetToHit 0xB000000000000001#64 (legacyTdc 0x6F00000004E20000#64 0) 0 0 = .ub .floatToInt :=
    c49_packet_undefined _ _ _ _ (by decide) (by decide)
  have e : queuePackets [⟨0x0010000033585054#64, [0x6F00000004E20000#64, 0xB000000000000001#64]⟩] =
      [(0, 0x6F00000004E20000#64), (0, 0xB000000000000001#64)] := by decide
  have h1 : isTdc 0x6F00000004E20000#64 = true := by decide
  have h2 : isTdc 0xB000000000000001#64 = false := by decide
  have h3 : isGdc 0xB000000000000001#64 = false := by decide
  have h4 : isHit 0xB000000000000001#64 = true := by decide
  rw [e, streamAll, streamPacket, if_pos h1]
  simp only [Res.bind, Clock.zero]
  rw [streamAll, streamPacket, if_neg (by rw [h2]; decide), if_neg (by rw [h3]; decide), if_pos h4]
  simp only
  rw [h]
  rfl

example : ¬ StartsTPX ((fun _ => 0#64 : Nat → U64) 3) := by decide

/-- C52 and C53 for a file that can be opened: if the reader's program is defined on it, it has a finite list of hits to
send, and under every fair schedule both threads end with these hits processed except for one stretch. -/
theorem c53_file_partial (junk : Nat → U64) (file : Bytes) (r : Option (List Hit)) (sched : Nat → Bool)
    (hf : Fair sched) (h : streamReader junk file = .ok r) :
    ∃ hits, r = some hits ∧ ∃ n, ∀ m, n ≤ m → ((StreamSys.init true hits).run sched m).readerDone = true ∧
      ((StreamSys.init true hits).run sched m).phase = .finished ∧
      MissesOnlyAStretch 10000 hits ((StreamSys.init true hits).run sched m).out.flatten := by
  rcases r with _ | hits
  · exact absurd h (c53_reader junk file)
  · obtain ⟨n, hn⟩ := c53_terminates_partial hits sched hf
    exact ⟨hits, rfl, n, fun m hm => ⟨(hn m hm).1, (hn m hm).2, c52_delivery_partial hits sched m (hn m hm).2⟩⟩

example : ∃ r, streamReader (fun _ => 0#64) [] = .ok r := ⟨_, c59_false_end.choose_spec.2⟩

end Verif.Props
