import Verif.Model.Race
import Verif.Props.Parallel
import Verif.Props.Display
import Verif.Props.StreamCli

/-!
# C96: data races

The parallel loop of the command line program and the loops of the same form in the benchmarks have none, so what is
proved of their interleavings (C18) is what a C++ implementation does.  The streaming program and the display program have
one in every run that does its work.
-/

namespace Verif.Props
open Verif Verif.Spec

/-! ## Happens before -/

theorem happensBefore_lt {L : Type} {x : Execution L} {i j : Nat} (h : HappensBefore x i j) : i < j := by
  induction h with
  | program h => exact h
  | sync h => exact h
  | trans _ _ h1 h2 => omega

/-- Without synchronisation only the order within a thread counts. -/
theorem happensBefore_thread {L : Type} {x : Execution L} (hx : ∀ i j, ¬ x.sync i j) {i j : Nat} (h : HappensBefore x i j) :
    ∃ a b, x.actions[i]? = some a ∧ x.actions[j]? = some b ∧ a.thread = b.thread := by
  induction h with
  | program _ ha hb hab => exact ⟨_, _, ha, hb, hab⟩
  | sync _ h => exact absurd h (hx _ _)
  | trans _ _ h1 h2 =>
    obtain ⟨a, b, ha, hb, hab⟩ := h1
    obtain ⟨b', c, hb', hc, hbc⟩ := h2
    rw [hb] at hb'
    cases Option.some.inj hb'
    exact ⟨a, c, ha, hc, hab.trans hbc⟩

theorem conflictAt_symm {L : Type} {l : L} {a b : Action L} (h : ConflictAt l a b) : ConflictAt l b a := by
  obtain ⟨p, hp, q, hq, h1, h2, h3⟩ := h
  exact ⟨q, hq, p, hp, h2, h1, h3.symm⟩

theorem raceOn_of_nosync {L : Type} {x : Execution L} (hx : ∀ i j, ¬ x.sync i j) {l : L} {i j : Nat} {a b : Action L}
    (ha : x.actions[i]? = some a) (hb : x.actions[j]? = some b) (hab : a.thread ≠ b.thread) (hc : ConflictAt l a b) :
    RaceOn x l := by
  have key : ∀ {i j : Nat} {a b : Action L}, x.actions[i]? = some a → x.actions[j]? = some b → a.thread ≠ b.thread →
      ConflictAt l a b → i < j → RaceOn x l := by
    intro i j a b ha hb hab hc hij
    refine ⟨i, j, a, b, hij, ha, hb, hab, hc, fun h => ?_, fun h => ?_⟩
    · obtain ⟨a', b', ha', hb', h'⟩ := happensBefore_thread hx h
      rw [ha] at ha'; rw [hb] at hb'
      cases Option.some.inj ha'; cases Option.some.inj hb'
      exact hab h'
    · have := happensBefore_lt h; omega
  rcases Nat.lt_trichotomy i j with h | h | h
  · exact key ha hb hab hc h
  · subst h
    rw [ha] at hb
    cases Option.some.inj hb
    exact absurd rfl hab
  · exact key hb ha hab.symm (conflictAt_symm hc) h

/-! ## The parallel loop -/

/-- The named steps are the steps of the model of C18. -/
theorem c96_steps (c : ProcCtx) (s s' : ParState) : c.Step s s' ↔ ∃ l, c.StepBy l s s' := by
  constructor
  · rintro ⟨j, w, i, rest, b, b', alg', next, hw, ht, hb, hs, h1, h2⟩
    exact ⟨⟨j, i, w.phase⟩, w, rest, b, b', alg', next, hw, ht, rfl, hb, hs, h1, h2⟩
  · rintro ⟨l, w, rest, b, b', alg', next, hw, ht, -, hb, hs, h1, h2⟩
    exact ⟨l.worker, w, l.index, rest, b, b', alg', next, hw, ht, hb, hs, h1, h2⟩

/-- Every run of the model of C18 is a run with names. -/
theorem c96_runs (c : ProcCtx) (s s' : ParState) : c.Reach s s' ↔ ∃ ls, c.RunBy s ls s' := by
  constructor
  · intro h
    induction h with
    | refl => exact ⟨[], .nil _⟩
    | step _ h ih =>
      obtain ⟨ls, hl⟩ := ih
      obtain ⟨l, h⟩ := (c96_steps c _ _).mp h
      exact ⟨ls ++ [l], .snoc hl h⟩
  · rintro ⟨ls, h⟩
    induction h with
    | nil => exact .refl _
    | snoc _ h ih => exact .step ih ((c96_steps c _ _).mpr ⟨_, h⟩)

theorem worker_after_alg (i : Nat) (rest : List Nat) (alg : AbsObj) (n : Option Phase) :
    (Worker.after i rest alg n).alg = alg := by cases n <;> rfl

theorem worker_after_todo (i : Nat) (rest : List Nat) (alg : AbsObj) (n : Option Phase) :
    (Worker.after i rest alg n).todo <:+ i :: rest := by
  cases n with
  | none => exact List.suffix_cons i rest
  | some ph => exact List.suffix_refl _

theorem map_getElem?_set {α β : Type} (f : α → β) (l : List α) (i k : Nat) (a b : α) (h : l[i]? = some a) (hf : f b = f a) :
    (l.set i b)[k]?.map f = l[k]?.map f := by
  rw [List.getElem?_set]
  split_ifs with h1 h2
  · subst h1; rw [h]; simp [hf]
  · subst h1; simp [List.getElem?_eq_none (Nat.le_of_not_lt h2)]
  · rfl

/-- The listed accesses are all: a step of the loop writes nothing else. -/
theorem c96_loop_writes (c : ProcCtx) (l : LoopStep) (s s' : ParState) (h : c.StepBy l s s') :
    OnlyWrites (loopValue c) l.touches s s' := by
  obtain ⟨w, rest, b, b', alg', next, hw, ht, hp, hb, hs, h1, h2⟩ := h
  obtain ⟨j, i, ph⟩ := l
  simp only at hw ht hp hb h1 h2
  subst hp
  intro loc hloc
  cases loc with
  | chunk => rfl
  | entry k =>
    simp only [loopValue, h1]
    congr 1
    by_cases hk : k = i
    · subst hk
      refine map_getElem?_set _ _ _ _ _ _ hb ?_
      cases hph : w.phase <;> rw [hph] at hs hloc <;> simp only [ProcCtx.stmt, bind] at hs
      · exact absurd (hloc ⟨.entry k, true⟩ (by simp [LoopStep.touches]) rfl) (by simp)
      · cases hs; rfl
      · cases hs; rfl
      · cases hf : w.alg.fit b.batch.hits <;> rw [hf] at hs <;> simp only [Res.bind] at hs <;> cases hs
        rfl
      · cases hf : w.alg.getEvents c.solve b.batch.hits <;> rw [hf] at hs <;> simp only [Res.bind] at hs <;> cases hs
        rfl
    · rw [List.getElem?_set_ne (Ne.symm hk)]
  | neutrons k =>
    simp only [loopValue, h1]
    congr 1
    by_cases hk : k = i
    · subst hk
      refine map_getElem?_set _ _ _ _ _ _ hb ?_
      cases hph : w.phase <;> rw [hph] at hs hloc <;> simp only [ProcCtx.stmt, bind] at hs
      · cases hf : extractHits c.mode c.chunk b.batch <;> rw [hf] at hs <;> simp only [Res.bind] at hs <;> cases hs
        rfl
      · cases hs; rfl
      · cases hs; rfl
      · cases hf : w.alg.fit b.batch.hits <;> rw [hf] at hs <;> simp only [Res.bind] at hs <;> cases hs
        rfl
      · exact absurd (hloc ⟨.neutrons k, true⟩ (by simp [LoopStep.touches]) rfl) (by simp)
    · rw [List.getElem?_set_ne (Ne.symm hk)]
  | alg k =>
    simp only [loopValue, h2]
    congr 1
    by_cases hk : k = j
    · subst hk
      refine map_getElem?_set _ _ _ _ _ _ hw ?_
      rw [worker_after_alg]
      cases hph : w.phase <;> rw [hph] at hs hloc <;> simp only [ProcCtx.stmt, bind] at hs
      · cases hf : extractHits c.mode c.chunk b.batch <;> rw [hf] at hs <;> simp only [Res.bind] at hs <;> cases hs
        rfl
      · exact absurd (hloc ⟨.alg k, true⟩ (by simp [LoopStep.touches]) rfl) (by simp)
      · exact absurd (hloc ⟨.alg k, true⟩ (by simp [LoopStep.touches]) rfl) (by simp)
      · exact absurd (hloc ⟨.alg k, true⟩ (by simp [LoopStep.touches]) rfl) (by simp)
      · cases hf : w.alg.getEvents c.solve b.batch.hits <;> rw [hf] at hs <;> simp only [Res.bind] at hs <;> cases hs
        rfl
    · rw [List.getElem?_set_ne (Ne.symm hk)]

theorem getElem?_set_map {α β : Type} (f : α → β) (l : List α) (i : Nat) (a b : α) (h : l[i]? = some a) :
    (l.set i b)[i]?.map f = some (f b) := by
  rw [List.getElem?_set_self (List.getElem?_eq_some_iff.mp h).1]; rfl

/-- The listed accesses are all: what a step of the loop writes depends on nothing else that is read. -/
theorem c96_loop_reads (c : ProcCtx) (l : LoopStep) (s t s' t' : ParState) (hs : c.StepBy l s s') (ht : c.StepBy l t t') :
    OnlyReads (loopValue c) l.touches s t s' t' := by
  obtain ⟨w, rest, b, b', alg', next, hw, hto, hp, hb, hst, h1, h2⟩ := hs
  obtain ⟨v, rest', d, d', alg'', next', gw, gto, gp, gb, gst, g1, g2⟩ := ht
  obtain ⟨j, i, ph⟩ := l
  simp only at hw hto hp hb h1 h2 gw gto gp gb g1 g2
  intro hread p hp' hwr
  have hentry : (⟨.entry i, false⟩ : Access LoopLoc) ∈ (⟨j, i, ph⟩ : LoopStep).touches → b.batch = d.batch := by
    intro hm
    have := hread _ hm rfl
    simpa [loopValue, hb, gb] using this
  have halg : (⟨.alg j, false⟩ : Access LoopLoc) ∈ (⟨j, i, ph⟩ : LoopStep).touches → w.alg = v.alg := by
    intro hm
    have := hread _ hm rfl
    simpa [loopValue, hw, gw] using this
  cases ph <;> rw [hp] at hst <;> rw [gp] at gst <;> simp only [ProcCtx.stmt, bind] at hst gst <;>
    simp only [LoopStep.touches, List.mem_cons, List.not_mem_nil, or_false] at hp' hentry halg
  · rcases hp' with rfl | rfl | rfl
    · exact absurd hwr (by simp)
    · exact absurd hwr (by simp)
    · rw [← hentry (by simp)] at gst
      cases hf : extractHits c.mode c.chunk b.batch <;> rw [hf] at hst gst <;> simp only [Res.bind] at hst gst <;>
        cases hst <;> cases gst
      simp only [loopValue, h1, g1, getElem?_set_map _ _ _ _ _ hb, getElem?_set_map _ _ _ _ _ gb]
  · rcases hp' with rfl | rfl
    · exact absurd hwr (by simp)
    · cases hst; cases gst
      simp only [loopValue, h2, g2, getElem?_set_map _ _ _ _ _ hw, getElem?_set_map _ _ _ _ _ gw, worker_after_alg,
        halg (by simp)]
  · rcases hp' with rfl | rfl
    · exact absurd hwr (by simp)
    · cases hst; cases gst
      simp only [loopValue, h2, g2, getElem?_set_map _ _ _ _ _ hw, getElem?_set_map _ _ _ _ _ gw, worker_after_alg,
        halg (by simp)]
  · rcases hp' with rfl | rfl | rfl
    · exact absurd hwr (by simp)
    · exact absurd hwr (by simp)
    · rw [← hentry (by simp), ← halg (by simp)] at gst
      cases hf : w.alg.fit b.batch.hits <;> rw [hf] at hst gst <;> simp only [Res.bind] at hst gst <;>
        cases hst <;> cases gst
      simp only [loopValue, h2, g2, getElem?_set_map _ _ _ _ _ hw, getElem?_set_map _ _ _ _ _ gw, worker_after_alg]
  · rcases hp' with rfl | rfl | rfl
    · exact absurd hwr (by simp)
    · exact absurd hwr (by simp)
    · rw [← hentry (by simp), ← halg (by simp)] at gst
      cases hf : w.alg.getEvents c.solve b.batch.hits <;> rw [hf] at hst gst <;> simp only [Res.bind] at hst gst <;>
        cases hst <;> cases gst
      simp only [loopValue, h1, g1, getElem?_set_map _ _ _ _ _ hb, getElem?_set_map _ _ _ _ _ gb]

/-- A body only works on the indices it was given. -/
theorem runBy_index {c : ProcCtx} {init : List EventBatch} {ranges : List (List Nat)} {ls : List LoopStep} {s : ParState}
    (h : c.RunBy (parStart c init ranges) ls s) :
    (∀ (j : Nat) (w : Worker), s.workers[j]? = some w → ∃ r, ranges[j]? = some r ∧ w.todo <:+ r) ∧
    ∀ l ∈ ls, ∃ r, ranges[l.worker]? = some r ∧ l.index ∈ r := by
  generalize hs0 : parStart c init ranges = s0 at h
  induction h with
  | nil =>
    subst hs0
    refine ⟨fun j w hw => ?_, by simp⟩
    simp only [parStart, List.getElem?_map, Option.map_eq_some_iff] at hw
    obtain ⟨r, hr, rfl⟩ := hw
    exact ⟨r, hr, List.suffix_refl _⟩
  | @snoc s1 s2 ls l _ hstep ih =>
    obtain ⟨ih1, ih2⟩ := ih
    obtain ⟨w, rest, b, b', alg', next, hw, ht, -, -, -, -, h2⟩ := hstep
    obtain ⟨r, hr, hsuf⟩ := ih1 _ _ hw
    have hl : l.index ∈ r := hsuf.subset (by rw [ht]; exact List.mem_cons_self)
    refine ⟨fun j v hv => ?_, fun l' hl' => ?_⟩
    · rw [h2] at hv
      by_cases hj : l.worker = j
      · subst hj
        rw [List.getElem?_set_self (List.getElem?_eq_some_iff.mp hw).1] at hv
        cases Option.some.inj hv
        exact ⟨r, hr, (worker_after_todo _ _ _ _).trans (ht ▸ hsuf)⟩
      · rw [List.getElem?_set_ne hj] at hv
        exact ih1 _ _ hv
    · rcases List.mem_append.mp hl' with h | h
      · exact ih2 _ h
      · rw [List.mem_singleton] at h
        subst h
        exact ⟨r, hr, hl⟩

/-- Different ranges of a partition have no index in common. -/
theorem ranges_disjoint {ranges : List (List Nat)} (h : ranges.flatten.Nodup) {j j' : Nat} {r r' : List Nat}
    (hj : ranges[j]? = some r) (hj' : ranges[j']? = some r') {i : Nat} (hi : i ∈ r) (hi' : i ∈ r') : j = j' := by
  rw [List.nodup_flatten] at h
  by_contra hne
  have hp := h.2
  rw [List.pairwise_iff_getElem] at hp
  obtain ⟨h1, e1⟩ := List.getElem?_eq_some_iff.mp hj
  obtain ⟨h2, e2⟩ := List.getElem?_eq_some_iff.mp hj'
  rcases Nat.lt_or_gt_of_ne hne with hlt | hlt
  · exact (hp j j' h1 h2 hlt) (e1 ▸ hi) (e2 ▸ hi')
  · exact (hp j' j h2 h1 hlt) (e2 ▸ hi') (e1 ▸ hi)

/-- C96: the parallel loop has no data race, however the indices are distributed and the bodies interleaved. -/
theorem c96_loop (c : ProcCtx) (init : List EventBatch) (ranges : List (List Nat)) (hp : IsPartition ranges init.length)
    (ls : List LoopStep) (s : ParState) (h : c.RunBy (parStart c init ranges) ls s) : RaceFree (loopExecution ls) := by
  rintro loc ⟨i, j, a, b, -, ha, hb, hab, ⟨p, hpa, q, hqb, hpl, hql, hw⟩, -⟩
  simp only [loopExecution, List.getElem?_map, Option.map_eq_some_iff] at ha hb
  obtain ⟨l, hl, rfl⟩ := ha
  obtain ⟨m, hm, rfl⟩ := hb
  have hnd : ranges.flatten.Nodup := hp.nodup_iff.mpr List.nodup_range
  obtain ⟨r, hr, hlr⟩ := (runBy_index h).2 l (List.mem_of_getElem? hl)
  obtain ⟨r', hr', hmr⟩ := (runBy_index h).2 m (List.mem_of_getElem? hm)
  have hidx : l.index ≠ m.index := fun e => hab (ranges_disjoint hnd hr hr' hlr (e ▸ hmr))
  have hab' : l.worker ≠ m.worker := hab
  have key : p.loc = q.loc := hpl.trans hql.symm
  obtain ⟨lj, li, lp⟩ := l
  obtain ⟨mj, mi, mp⟩ := m
  simp only [LoopStep.action] at hpa hqb hidx hab'
  clear hpl hql hab h hp
  cases lp <;> cases mp <;>
    simp only [LoopStep.touches, List.mem_cons, List.not_mem_nil, or_false] at hpa hqb <;>
    rcases hpa with rfl | rfl | rfl <;> rcases hqb with rfl | rfl | rfl <;>
    simp_all

/-! ## The streaming program -/

theorem stream_opened {α : Type} (s : StreamSys α) (sched : Nat → Bool) (n : Nat) : (s.run sched n).opened = s.opened := by
  induction n with
  | zero => rfl
  | succ n ih =>
    rw [← ih]
    simp only [StreamSys.run]
    split
    · unfold StreamSys.readerStep
      split
      · rfl
      · split <;> rfl
    · unfold StreamSys.procStep
      split <;> (try rfl) <;> split <;> (try rfl) <;> split <;> rfl

/-- A reader that has returned stays so. -/
theorem stream_returned {α : Type} (s : StreamSys α) (sched : Nat → Bool) (n m : Nat) (h : n ≤ m)
    (hd : (s.run sched n).readerDone = true) : (s.run sched m).readerDone = true := by
  induction m, h using Nat.le_induction with
  | base => exact hd
  | succ m _ ih =>
    simp only [StreamSys.run]
    split
    · unfold StreamSys.readerStep
      rw [if_pos ih]
      exact ih
    · unfold StreamSys.procStep
      split <;> (try exact ih) <;> split <;> (try exact ih) <;> split <;> exact ih

/-- The flag is only set by the reader's last step. -/
theorem stream_set {α : Type} (opened : Bool) (hits : List α) (sched : Nat → Bool) (n : Nat)
    (h : ((StreamSys.init opened hits).run sched n).flag = true) :
    ∃ i < n, sched i = true ∧ ((StreamSys.init opened hits).run sched i).readerDone = false ∧
      ((StreamSys.init opened hits).run sched i).todo = [] ∧ ((StreamSys.init opened hits).run sched i).opened = true := by
  induction n with
  | zero => exact absurd h (by simp [StreamSys.run, StreamSys.init])
  | succ n ih =>
    by_cases hf : ((StreamSys.init opened hits).run sched n).flag = true
    · obtain ⟨i, hi, h'⟩ := ih hf
      exact ⟨i, by omega, h'⟩
    · refine ⟨n, by omega, ?_⟩
      generalize hs : (StreamSys.init opened hits).run sched n = s at *
      simp only [StreamSys.run, hs] at h
      by_cases hsch : sched n = true
      · rw [if_pos hsch] at h
        refine ⟨hsch, ?_⟩
        unfold StreamSys.readerStep at h
        by_cases hrd : s.readerDone = true
        · rw [if_pos hrd] at h; exact absurd h hf
        · rw [if_neg hrd] at h
          refine ⟨by simpa using hrd, ?_⟩
          cases hto : s.todo with
          | nil => rw [hto] at h; simp only [Bool.or_eq_true] at h; exact ⟨rfl, h.resolve_left hf⟩
          | cons a l => rw [hto] at h; exact absurd h hf
      · rw [if_neg hsch] at h
        exfalso
        apply hf
        unfold StreamSys.procStep at h
        split at h <;> (try exact h) <;> split at h <;> (try exact h) <;> split at h <;> exact h

/-- The processor leaves its first loop by reading the flag as set. -/
theorem stream_seen {α : Type} (opened : Bool) (hits : List α) (sched : Nat → Bool) (n : Nat)
    (h1 : ((StreamSys.init opened hits).run sched n).phase ≠ .test)
    (h2 : ((StreamSys.init opened hits).run sched n).phase ≠ .tryDequeue) :
    ∃ j < n, sched j = false ∧ ((StreamSys.init opened hits).run sched j).phase = .test ∧
      ((StreamSys.init opened hits).run sched j).flag = true := by
  induction n with
  | zero => exact absurd rfl h1
  | succ n ih =>
    by_cases hp : ((StreamSys.init opened hits).run sched n).phase ≠ .test ∧
        ((StreamSys.init opened hits).run sched n).phase ≠ .tryDequeue
    · obtain ⟨j, hj, h'⟩ := ih hp.1 hp.2
      exact ⟨j, by omega, h'⟩
    · refine ⟨n, by omega, ?_⟩
      generalize hs : (StreamSys.init opened hits).run sched n = s at *
      simp only [StreamSys.run, hs] at h1 h2
      by_cases hsch : sched n = true
      · exfalso
        rw [if_pos hsch] at h1 h2
        have : s.readerStep.phase = s.phase := by
          unfold StreamSys.readerStep
          split
          · rfl
          · split <;> rfl
        rw [this] at h1 h2
        exact hp ⟨h1, h2⟩
      · rw [if_neg hsch] at h1 h2
        refine ⟨by simpa using hsch, ?_⟩
        unfold StreamSys.procStep at h1 h2
        cases hph : s.phase with
        | test =>
          rw [hph] at h1 h2
          by_cases hf : s.flag = true
          · exact ⟨rfl, hf⟩
          · simp only [if_neg hf] at h2
            exact absurd rfl h2
        | tryDequeue =>
          exfalso
          rw [hph] at h1
          cases hq : s.queue with
          | nil => rw [hq] at h1; exact h1 rfl
          | cons a q =>
            rw [hq] at h1
            simp only at h1
            split at h1 <;> exact h1 rfl
        | drainTest => exact absurd ⟨by rw [hph]; decide, by rw [hph]; decide⟩ hp
        | drainDequeue => exact absurd ⟨by rw [hph]; decide, by rw [hph]; decide⟩ hp
        | finished => exact absurd ⟨by rw [hph]; decide, by rw [hph]; decide⟩ hp

theorem streamExecution_action {α : Type} (s : StreamSys α) (sched : Nat → Bool) (n k : Nat) (hk : k < n) :
    (streamExecution s sched n).actions[k]? =
      some ⟨if sched k then 0 else 1, (s.run sched k).touches (sched k)⟩ := by
  simp [streamExecution, hk]

/-- C96, false: in every run in which the processor leaves its first loop the variable `done` is in a data race, even if
every operation on the queue synchronised with every later one. -/
theorem c96_false_stream {α : Type} (opened : Bool) (hits : List α) (sched : Nat → Bool) (n : Nat)
    (h1 : ((StreamSys.init opened hits).run sched n).phase ≠ .test)
    (h2 : ((StreamSys.init opened hits).run sched n).phase ≠ .tryDequeue) :
    RaceOn (streamExecution (StreamSys.init opened hits) sched n) .done := by
  obtain ⟨j, hj, hjs, hjp, hjf⟩ := stream_seen opened hits sched n h1 h2
  obtain ⟨i, hi, his, hir, hit, hio⟩ := stream_set opened hits sched j hjf
  have hlater : ∀ k, i < k → ((StreamSys.init opened hits).run sched k).readerDone = true := by
    intro k hk
    refine stream_returned _ sched (i + 1) k hk ?_
    simp only [StreamSys.run, if_pos his, StreamSys.readerStep, if_neg (Bool.eq_false_iff.mp hir), hit]
  have key : ∀ p q, HappensBefore (streamExecution (StreamSys.init opened hits) sched n) p q → i ≤ p → sched p = true →
      sched q = true := by
    intro p q hpq
    induction hpq with
    | @program p q a b _ ha hb hab =>
      intro _ hp
      have hpn : p < n := by
        have := (List.getElem?_eq_some_iff.mp ha).1
        simpa [streamExecution] using this
      have hqn : q < n := by
        have := (List.getElem?_eq_some_iff.mp hb).1
        simpa [streamExecution] using this
      rw [streamExecution_action _ _ _ _ hpn] at ha
      rw [streamExecution_action _ _ _ _ hqn] at hb
      cases Option.some.inj ha; cases Option.some.inj hb
      by_contra hq
      simp [hp, hq] at hab
    | @sync p q _ hs =>
      intro hip hp
      exfalso
      have h := hs.1
      rw [hp] at h
      rcases Nat.lt_or_ge i p with hlt | hge
      · have h3 := hlater p hlt
        rw [h.1] at h3
        exact absurd h3 (by decide)
      · have : p = i := by omega
        subst this
        exact h.2 hit
    | trans hpq hqr ih1 ih2 =>
      intro hip hp
      have := happensBefore_lt hpq
      exact ih2 (by omega) (ih1 hip hp)
  refine ⟨i, j, _, _, hi, streamExecution_action _ _ _ _ (by omega), streamExecution_action _ _ _ _ hj, ?_, ?_, fun h => ?_,
    fun h => ?_⟩
  · simp [his, hjs]
  · refine ⟨⟨.done, true⟩, ?_, ⟨.done, false⟩, ?_, rfl, rfl, Or.inl rfl⟩
    · simp [his, StreamSys.touches, hir, hit, hio]
    · simp [hjs, StreamSys.touches, hjp]
  · have := key i j h (Nat.le_refl _) his
    rw [hjs] at this
    exact absurd this (by decide)
  · have := happensBefore_lt h
    omega

/-- C96, false: every run of the streaming program on a file that can be opened, with any fair scheduling, has the race. -/
theorem c96_false_stream_fair {α : Type} (hits : List α) (sched : Nat → Bool) (hf : Fair sched) :
    ∃ n, RaceOn (streamExecution (StreamSys.init true hits) sched n) .done := by
  obtain ⟨n, hn⟩ := c53_terminates_partial hits sched hf
  exact ⟨n, c96_false_stream true hits sched n (by rw [(hn n (Nat.le_refl n)).2]; decide)
    (by rw [(hn n (Nat.le_refl n)).2]; decide)⟩

/-- The accesses listed for the streaming program are all. -/
theorem c96_stream_writes {α : Type} (s : StreamSys α) (who : Bool) :
    OnlyWrites streamValue (s.touches who) s (if who then s.readerStep else s.procStep) := by
  intro l hl
  cases l
  cases who
  · simp only [Bool.false_eq_true, if_false, streamValue]
    unfold StreamSys.procStep
    split <;> (try rfl) <;> split <;> (try rfl) <;> split <;> rfl
  · simp only [if_true, streamValue]
    unfold StreamSys.readerStep
    by_cases hr : s.readerDone = true
    · rw [if_pos hr]
    · rw [if_neg hr]
      cases ht : s.todo with
      | cons a l => rfl
      | nil =>
        cases ho : s.opened with
        | false => simp
        | true =>
          have := hl ⟨.done, true⟩ (by simp [StreamSys.touches, ho, ht, hr]) rfl
          simp at this

/-- A step that is not listed as reading `done` does the same whatever `done` is. -/
theorem c96_stream_reads {α : Type} (s : StreamSys α) (who b : Bool)
    (h : (⟨.done, false⟩ : Access StreamLoc) ∉ s.touches who) :
    (if who then ({ s with flag := b } : StreamSys α).readerStep else ({ s with flag := b } : StreamSys α).procStep) =
      { (if who then s.readerStep else s.procStep) with
        flag := if who = true ∧ s.readerDone = false ∧ s.todo = [] then b || s.opened else b } := by
  cases who
  · simp only [Bool.false_eq_true, if_false, false_and]
    unfold StreamSys.procStep
    cases hp : s.phase with
    | test => simp [StreamSys.touches, hp] at h
    | tryDequeue =>
      cases hq : s.queue with
      | nil => simp [hp, hq]
      | cons a q => simp only [hp, hq]; split <;> rfl
    | drainTest => simp only [hp]; split <;> (try rfl) <;> split <;> rfl
    | drainDequeue => cases hq : s.queue <;> simp [hp, hq]
    | finished => simp [hp]
  · simp only [if_true, true_and]
    unfold StreamSys.readerStep
    by_cases hr : s.readerDone = true
    · simp [hr]
    · cases ht : s.todo <;> simp [hr, ht]

/-- C96, the streaming program: the operations on the queue are exactly the steps that change it or depend on it. -/
theorem c96_stream_queue {α : Type} [Nonempty α] (s : StreamSys α) (who : Bool) :
    s.usesQueue who ↔ ∃ q : List α, (if who then ({ s with queue := q } : StreamSys α).readerStep
        else ({ s with queue := q } : StreamSys α).procStep) ≠
      { (if who then s.readerStep else s.procStep) with queue := q } := by
  have a : α := Classical.arbitrary α
  obtain ⟨todo, opened, readerDone, flag, queue, phase, batch, out⟩ := s
  cases who
  · simp only [StreamSys.usesQueue, StreamSys.procStep, Bool.false_eq_true, if_false]
    cases phase with
    | test => cases flag <;> simp
    | tryDequeue =>
      simp only [true_or, true_iff]
      refine ⟨[a], fun h => ?_⟩
      have h1 := congrArg StreamSys.queue h
      simp only at h1
      split_ifs at h1
    | drainTest =>
      simp only [or_true, true_or, true_iff]
      cases queue with
      | nil =>
        refine ⟨[a], fun h => ?_⟩
        have h1 := congrArg StreamSys.phase h
        cases batch <;> simp at h1
      | cons x q =>
        refine ⟨[], fun h => ?_⟩
        have h1 := congrArg StreamSys.phase h
        cases batch <;> simp at h1
    | drainDequeue =>
      simp only [or_true, true_iff]
      refine ⟨[a], fun h => ?_⟩
      have h1 := congrArg StreamSys.queue h
      simp at h1
    | finished => simp
  · simp only [StreamSys.usesQueue, StreamSys.readerStep, if_true]
    cases readerDone with
    | true => simp
    | false =>
      cases todo with
      | nil => simp
      | cons h t => simp

/-! ## The display program -/

theorem ringExecution_action {α : Type} (hits : List α) (s : Ring α) (sched : Nat → RingActor) (n k : Nat) (hk : k < n) :
    (ringExecution hits s sched n).actions[k]? =
      some ⟨(sched k).number, (s.run hits sched k).touches hits (sched k)⟩ := by
  simp [ringExecution, hk]

/-- Two steps of different threads that touch the same location, one writing, are a race. -/
theorem ring_race {α : Type} {hits : List α} {s : Ring α} {sched : Nat → RingActor} {n i j : Nat} (hi : i < n) (hj : j < n)
    (hne : sched i ≠ sched j) {l : RingLoc} {w : Bool} (h1 : (⟨l, true⟩ : Access RingLoc) ∈ (s.run hits sched i).touches hits (sched i))
    (h2 : (⟨l, w⟩ : Access RingLoc) ∈ (s.run hits sched j).touches hits (sched j)) :
    RaceOn (ringExecution hits s sched n) l := by
  refine raceOn_of_nosync (fun _ _ h => h) (ringExecution_action hits s sched n i hi) (ringExecution_action hits s sched n j hj)
    ?_ ⟨_, h1, _, h2, rfl, rfl, Or.inl rfl⟩
  intro h
  apply hne
  revert h
  cases sched i <;> cases sched j <;> simp [RingActor.number]

/-- The accesses listed for the display program are all. -/
theorem c96_ring_writes {α : Type} (hits : List α) (s : Ring α) (a : RingActor) :
    OnlyWrites ringValue (s.touches hits a) s (s.step hits a) := by
  intro l hl
  cases a with
  | producer =>
    simp only [Ring.step, Ring.producerStep]
    simp only [Ring.touches] at hl
    cases hp : s.prod with
    | wait =>
      rw [hp] at hl
      cases hh : hits[s.next]? with
      | none =>
        have : ¬ s.next < hits.length := fun h => by simp [List.getElem?_eq_getElem h] at hh
        simp only [this, if_false, List.mem_singleton, forall_eq] at hl
        cases l <;> simp_all [ringValue]
      | some a =>
        simp only
        split <;> cases l <;> rfl
    | check => simp only; split <;> cases l <;> rfl
    | copy =>
      rw [hp] at hl
      cases hh : hits[s.next]? with
      | none => rfl
      | some a =>
        have := (List.getElem?_eq_some_iff.mp hh).1
        simp only [this, if_true, List.mem_cons, List.not_mem_nil, or_false, forall_eq_or_imp, forall_eq] at hl
        cases l <;> simp_all [ringValue, Function.update]
        intro e
        subst e
        simp at hl
    | publish =>
      rw [hp] at hl
      simp only [List.mem_cons, List.not_mem_nil, or_false, forall_eq_or_imp, forall_eq] at hl
      cases l <;> simp_all [ringValue]
    | done => rfl
  | consumer =>
    simp only [Ring.step, Ring.consumerStep]
    simp only [Ring.touches] at hl
    cases hp : s.cons with
    | outer =>
      rw [hp] at hl
      cases hk : s.kill with
      | false => cases l <;> simp_all [ringValue]
      | true =>
        rw [hk] at hl
        simp only [if_true, List.mem_cons, List.not_mem_nil, or_false, forall_eq_or_imp, forall_eq] at hl
        cases l <;> simp_all [ringValue]
    | inner => simp only; split <;> cases l <;> rfl
    | use => cases l <;> rfl
    | advance =>
      rw [hp] at hl
      simp only [List.mem_cons, List.not_mem_nil, or_false, forall_eq_or_imp, forall_eq] at hl
      cases l <;> simp_all [ringValue]
    | exited => rfl
  | timer =>
    simp only [Ring.step, Ring.timerStep]
    simp only [Ring.touches] at hl
    cases hk : s.fileDone with
    | false => rfl
    | true =>
      rw [hk] at hl
      simp only [if_true, List.mem_cons, List.not_mem_nil, or_false, forall_eq_or_imp, forall_eq] at hl
      cases l <;> simp_all [ringValue]

/-- The thread's own part of the state: its position, and the hits handled so far. -/
def ringOwn {α : Type} (s : Ring α) : RingActor → ProducerAt × Nat × ConsumerAt × List α
  | .producer => (s.prod, s.next, .outer, [])
  | .consumer => (.wait, 0, s.cons, s.got)
  | .timer => (.wait, 0, .outer, [])

theorem c96_ring_reads {α : Type} (hits : List α) (s t : Ring α) (a : RingActor) (ho : ringOwn s a = ringOwn t a) :
    OnlyReads ringValue (s.touches hits a) s t (s.step hits a) (t.step hits a) ∧
    ((∀ p ∈ s.touches hits a, p.write = false → ringValue s p.loc = ringValue t p.loc) →
      ringOwn (s.step hits a) a = ringOwn (t.step hits a) a) := by
  cases a with
  | producer =>
    simp only [ringOwn, Prod.mk.injEq, and_true] at ho
    obtain ⟨h1, h2⟩ := ho
    simp only [OnlyReads, Ring.step, Ring.producerStep, Ring.touches, ringOwn]
    rw [← h1, ← h2]
    cases hp : s.prod with
    | wait =>
      cases hh : hits[s.next]? with
      | none =>
        have : ¬ s.next < hits.length := fun h => by simp [List.getElem?_eq_getElem h] at hh
        simp only [this, if_false]
        refine ⟨by simp [ringValue], by simp⟩
      | some a =>
        have := (List.getElem?_eq_some_iff.mp hh).1
        simp only [this, if_true]
        refine ⟨by simp, fun hr => ?_⟩
        simp only [List.mem_cons, List.not_mem_nil, or_false, forall_eq_or_imp, forall_eq, ringValue, RingVal.index.injEq,
          true_imp_iff] at hr
        rw [hr.1, hr.2]
        split <;> simp [h1, h2, ← hp]
    | check =>
      refine ⟨by simp, fun hr => ?_⟩
      simp only [List.mem_cons, List.not_mem_nil, or_false, forall_eq_or_imp, forall_eq, ringValue, RingVal.index.injEq,
          true_imp_iff] at hr
      simp only [hr.1, hr.2]
      by_cases hc : Ring.after t.pi = t.ci <;> simp [hc, h2]
    | copy =>
      cases hh : hits[s.next]? with
      | none =>
        have : ¬ s.next < hits.length := fun h => by simp [List.getElem?_eq_getElem h] at hh
        simp [this, ← h1, ← h2, hp]
      | some a =>
        have := (List.getElem?_eq_some_iff.mp hh).1
        simp only [this, if_true, List.mem_cons, List.not_mem_nil, or_false, forall_eq_or_imp, forall_eq, ringValue,
          RingVal.index.injEq, true_imp_iff]
        refine ⟨fun hr => ⟨by simp, ?_⟩, by simp [h2]⟩
        rw [hr.1]
        simp
    | publish =>
      simp only [List.mem_cons, List.not_mem_nil, or_false, forall_eq_or_imp, forall_eq, ringValue,
          RingVal.index.injEq, true_imp_iff]
      refine ⟨fun hr => ⟨by simp, ?_⟩, by simp [h2]⟩
      rw [hr.1]
    | done => simp [h1, h2]
  | consumer =>
    simp only [ringOwn, Prod.mk.injEq, true_and] at ho
    obtain ⟨h1, h2⟩ := ho
    simp only [OnlyReads, Ring.step, Ring.consumerStep, Ring.touches, ringOwn]
    rw [← h1]
    cases hp : s.cons with
    | outer =>
      cases hk : s.kill with
      | false =>
        refine ⟨by simp, fun hr => ?_⟩
        have : s.kill = t.kill := by simpa [ringValue] using hr ⟨.kill, false⟩ (by simp) rfl
        rw [← this, hk]
        simp [h2]
      | true =>
        refine ⟨fun hr => ?_, fun hr => ?_⟩
        · have : s.kill = t.kill := by simpa [ringValue] using hr ⟨.kill, false⟩ (by simp) rfl
          rw [← this, hk]
          simp [ringValue]
        · have : s.kill = t.kill := by simpa [ringValue] using hr ⟨.kill, false⟩ (by simp) rfl
          rw [← this, hk]
          simp [h2]
    | inner =>
      refine ⟨by simp, fun hr => ?_⟩
      simp only [List.mem_cons, List.not_mem_nil, or_false, forall_eq_or_imp, forall_eq, ringValue, RingVal.index.injEq,
          true_imp_iff] at hr
      simp only [hr.1, hr.2]
      by_cases hc : t.ci = t.pi <;> simp [hc, h2]
    | use =>
      refine ⟨by simp, fun hr => ?_⟩
      simp only [List.mem_cons, List.not_mem_nil, or_false, forall_eq_or_imp, forall_eq, ringValue, RingVal.index.injEq,
          RingVal.hit.injEq, true_imp_iff] at hr
      rw [hr.2, h2, hr.1]
    | advance =>
      simp only [List.mem_cons, List.not_mem_nil, or_false, forall_eq_or_imp, forall_eq, ringValue,
          RingVal.index.injEq, true_imp_iff]
      refine ⟨fun hr => ⟨by simp, ?_⟩, by simp [h2]⟩
      rw [hr.1]
    | exited => simp [h1, h2]
  | timer =>
    refine ⟨?_, fun _ => rfl⟩
    simp only [OnlyReads, Ring.step, Ring.timerStep, Ring.touches]
    intro hr
    have : s.fileDone = t.fileDone := by simpa [ringValue] using hr ⟨.fileDone, false⟩ (by simp) rfl
    rw [← this]
    cases hk : s.fileDone <;> simp [ringValue]

/-- Something that happened before step `n` happened before step `n + 1`. -/
theorem before_succ {n : Nat} {P : Nat → Prop} (h : ∃ i < n, P i) : ∃ i < n + 1, P i := by
  obtain ⟨i, hi, h⟩ := h
  exact ⟨i, by omega, h⟩

/-- Either nothing is published or some step has published. -/
theorem ring_published {α : Type} (hits : List α) (junk : Nat → α) (sched : Nat → RingActor) (n : Nat) :
    ((Ring.init junk).run hits sched n).pi = 0 ∨
      ∃ i < n, sched i = .producer ∧ ((Ring.init junk).run hits sched i).prod = .publish := by
  induction n with
  | zero => exact Or.inl rfl
  | succ n ih =>
    rcases ih with ih | ih
    · simp only [Ring.run]
      generalize hs : (Ring.init junk).run hits sched n = s at *
      cases ha : sched n with
      | producer =>
        cases hp : s.prod with
        | publish => exact Or.inr ⟨n, by omega, ha, by rw [hs, hp]⟩
        | _ =>
          left
          simp only [Ring.step, Ring.producerStep, hp]
          first | done | exact ih | (split <;> (try exact ih) <;> split <;> exact ih) | (split <;> exact ih)
      | consumer =>
        left
        simp only [Ring.step, Ring.consumerStep]
        split <;> (try exact ih) <;> split <;> exact ih
      | timer =>
        left
        simp only [Ring.step, Ring.timerStep]
        split <;> exact ih
    · exact Or.inr (before_succ ih)

/-- Either the first slot is not written or some step has written it. -/
theorem ring_copied {α : Type} (hits : List α) (junk : Nat → α) (sched : Nat → RingActor) (n : Nat) :
    (((Ring.init junk).run hits sched n).pi = 0 ∧ ((Ring.init junk).run hits sched n).prod ≠ .publish) ∨
      ∃ i < n, sched i = .producer ∧ ((Ring.init junk).run hits sched i).prod = .copy ∧
        ((Ring.init junk).run hits sched i).next < hits.length ∧ ((Ring.init junk).run hits sched i).pi = 0 := by
  induction n with
  | zero => exact Or.inl ⟨rfl, by simp [Ring.run, Ring.init]⟩
  | succ n ih =>
    rcases ih with ⟨ih, ihp⟩ | ih
    · simp only [Ring.run]
      generalize hs : (Ring.init junk).run hits sched n = s at *
      cases ha : sched n with
      | producer =>
        cases hp : s.prod with
        | publish => exact absurd hp ihp
        | copy =>
          cases hh : hits[s.next]? with
          | none =>
            left
            simp only [Ring.step, Ring.producerStep, hp, hh]
            exact ⟨ih, by simp⟩
          | some a =>
            exact Or.inr ⟨n, by omega, ha, by rw [hs, hp], by rw [hs]; exact (List.getElem?_eq_some_iff.mp hh).1, by rw [hs, ih]⟩
        | wait =>
          left
          simp only [Ring.step, Ring.producerStep, hp]
          split
          · exact ⟨ih, by simp⟩
          · split
            · exact ⟨ih, ihp⟩
            · exact ⟨ih, by simp⟩
        | check =>
          left
          simp only [Ring.step, Ring.producerStep, hp]
          split <;> exact ⟨ih, by simp⟩
        | done =>
          left
          simp only [Ring.step, Ring.producerStep, hp]
          exact ⟨ih, by simp⟩
      | consumer =>
        left
        simp only [Ring.step, Ring.consumerStep]
        split <;> (try exact ⟨ih, ihp⟩) <;> split <;> exact ⟨ih, ihp⟩
      | timer =>
        left
        simp only [Ring.step, Ring.timerStep]
        split <;> exact ⟨ih, ihp⟩
    · exact Or.inr (before_succ ih)

/-- Either nothing is taken, or a step has read `pi`, one has published, and one has read the first slot. -/
theorem ring_taken {α : Type} (hits : List α) (junk : Nat → α) (sched : Nat → RingActor) (n : Nat) :
    (((Ring.init junk).run hits sched n).ci = 0 ∧ ((Ring.init junk).run hits sched n).got = [] ∧
      ((Ring.init junk).run hits sched n).cons ≠ .use ∧ ((Ring.init junk).run hits sched n).cons ≠ .advance) ∨
    ((∃ i < n, sched i = .producer ∧ ((Ring.init junk).run hits sched i).prod = .publish) ∧
     (∃ j < n, sched j = .consumer ∧ ((Ring.init junk).run hits sched j).cons = .inner) ∧
      ((((Ring.init junk).run hits sched n).ci = 0 ∧ ((Ring.init junk).run hits sched n).got = [] ∧
        ((Ring.init junk).run hits sched n).cons ≠ .advance) ∨
       ∃ j < n, sched j = .consumer ∧ ((Ring.init junk).run hits sched j).cons = .use ∧
        ((Ring.init junk).run hits sched j).ci = 0)) := by
  induction n with
  | zero => exact Or.inl ⟨rfl, rfl, by simp [Ring.run, Ring.init], by simp [Ring.run, Ring.init]⟩
  | succ n ih =>
    have hpub := ring_published hits junk sched n
    simp only [Ring.run]
    generalize hs : (Ring.init junk).run hits sched n = s at *
    cases ha : sched n with
    | producer =>
      have h1 : (s.step hits .producer).ci = s.ci := by
        simp only [Ring.step, Ring.producerStep]
        split <;> (try rfl) <;> split <;> (try rfl) <;> split <;> rfl
      have h2 : (s.step hits .producer).got = s.got := by
        simp only [Ring.step, Ring.producerStep]
        split <;> (try rfl) <;> split <;> (try rfl) <;> split <;> rfl
      have h3 : (s.step hits .producer).cons = s.cons := by
        simp only [Ring.step, Ring.producerStep]
        split <;> (try rfl) <;> split <;> (try rfl) <;> split <;> rfl
      rw [h1, h2, h3]
      rcases ih with ih | ⟨iha, ihb, ihc⟩
      · exact Or.inl ih
      · exact Or.inr ⟨before_succ iha, before_succ ihb, ihc.imp id before_succ⟩
    | timer =>
      have h1 : (s.step hits .timer).ci = s.ci := by simp only [Ring.step, Ring.timerStep]; split <;> rfl
      have h2 : (s.step hits .timer).got = s.got := by simp only [Ring.step, Ring.timerStep]; split <;> rfl
      have h3 : (s.step hits .timer).cons = s.cons := by simp only [Ring.step, Ring.timerStep]; split <;> rfl
      rw [h1, h2, h3]
      rcases ih with ih | ⟨iha, ihb, ihc⟩
      · exact Or.inl ih
      · exact Or.inr ⟨before_succ iha, before_succ ihb, ihc.imp id before_succ⟩
    | consumer =>
      simp only [Ring.step, Ring.consumerStep]
      rcases ih with ⟨ic, ig, iu, ia⟩ | ⟨iha, ihb, ihc⟩
      · cases hc : s.cons with
        | outer => left; simp only; split <;> exact ⟨ic, ig, by simp, by simp⟩
        | inner =>
          by_cases hne : s.ci ≠ s.pi
          · right
            simp only [if_pos hne]
            refine ⟨before_succ (hpub.resolve_left fun h => hne (ic.trans h.symm)), ⟨n, by omega, ha, by rw [hs, hc]⟩,
              Or.inl ⟨ic, ig, by simp⟩⟩
          · left
            simp only [if_neg hne]
            exact ⟨ic, ig, by simp, by simp⟩
        | use => exact absurd hc iu
        | advance => exact absurd hc ia
        | exited => left; exact ⟨ic, ig, iu, ia⟩
      · right
        refine ⟨before_succ iha, before_succ ihb, ?_⟩
        rcases ihc with ⟨ic, ig, ia⟩ | ihc
        · cases hc : s.cons with
          | outer => left; simp only; split <;> exact ⟨ic, ig, by simp⟩
          | inner => left; simp only; split <;> exact ⟨ic, ig, by simp⟩
          | use => right; exact ⟨n, by omega, ha, by rw [hs, hc], by rw [hs, ic]⟩
          | advance => exact absurd hc ia
          | exited => left; exact ⟨ic, ig, ia⟩
        · exact Or.inr (before_succ ihc)

/-- C96, false: as soon as one hit has been taken from the ring, `pi` and the slot of the first hit have been in a data
race. -/
theorem c96_false_display {α : Type} (hits : List α) (junk : Nat → α) (sched : Nat → RingActor) (n : Nat)
    (h : ((Ring.init junk).run hits sched n).got ≠ []) :
    RaceOn (ringExecution hits (Ring.init junk) sched n) .pi ∧
    RaceOn (ringExecution hits (Ring.init junk) sched n) (.slot 0) := by
  rcases ring_taken hits junk sched n with ⟨-, hg, -⟩ | ⟨⟨i, hi, his, hip⟩, ⟨j, hj, hjs, hjc⟩, ⟨-, hg, -⟩ | ⟨k, hk, hks, hkc, hk0⟩⟩
  · exact absurd hg h
  · exact absurd hg h
  · refine ⟨ring_race (w := false) hi hj (by rw [his, hjs]; decide) ?_ ?_, ?_⟩
    · simp [his, Ring.touches, hip]
    · simp [hjs, Ring.touches, hjc]
    · rcases ring_copied hits junk sched i with ⟨-, hne⟩ | ⟨m, hm, hms, hmp, hmn, hm0⟩
      · exact absurd hip hne
      · refine ring_race (w := false) (i := m) (j := k) (by omega) hk (by rw [hms, hks]; decide) ?_ ?_
        · simp [hms, Ring.touches, hmp, hmn, hm0]
        · simp [hks, Ring.touches, hkc, hk0]

/-- What must have happened before the consumer ends. -/
theorem ring_ended {α : Type} (hits : List α) (junk : Nat → α) (sched : Nat → RingActor) (n : Nat) :
    (((Ring.init junk).run hits sched n).fileDone = true →
      ∃ i < n, sched i = .producer ∧ ((Ring.init junk).run hits sched i).prod = .wait ∧
        ¬ ((Ring.init junk).run hits sched i).next < hits.length) ∧
    (((Ring.init junk).run hits sched n).kill = true →
      ∃ i < n, sched i = .timer ∧ ((Ring.init junk).run hits sched i).fileDone = true) ∧
    (((Ring.init junk).run hits sched n).clusterDone = true →
      ∃ i < n, sched i = .consumer ∧ ((Ring.init junk).run hits sched i).cons = .outer ∧
        ((Ring.init junk).run hits sched i).kill = true) := by
  induction n with
  | zero => exact ⟨fun h => by simp [Ring.run, Ring.init] at h, fun h => by simp [Ring.run, Ring.init] at h,
      fun h => by simp [Ring.run, Ring.init] at h⟩
  | succ n ih =>
    obtain ⟨i1, i2, i3⟩ := ih
    simp only [Ring.run]
    refine ⟨fun h => ?_, fun h => ?_, fun h => ?_⟩
    · by_cases hf : ((Ring.init junk).run hits sched n).fileDone = true
      · exact before_succ (i1 hf)
      · refine ⟨n, by omega, ?_⟩
        generalize (Ring.init junk).run hits sched n = s at *
        cases ha : sched n with
        | producer =>
          rw [ha] at h
          simp only [Ring.step, Ring.producerStep] at h
          cases hp : s.prod with
          | wait =>
            refine ⟨rfl, rfl, fun hlt => ?_⟩
            rw [hp, List.getElem?_eq_getElem hlt] at h
            simp only at h
            split at h <;> exact hf h
          | check => rw [hp] at h; simp only at h; split at h <;> exact absurd h hf
          | copy => rw [hp] at h; simp only at h; split at h <;> exact absurd h hf
          | publish => rw [hp] at h; exact absurd h hf
          | done => rw [hp] at h; exact absurd h hf
        | consumer =>
          rw [ha] at h
          simp only [Ring.step, Ring.consumerStep] at h
          exfalso
          split at h <;> (try exact hf h) <;> split at h <;> exact hf h
        | timer =>
          rw [ha] at h
          simp only [Ring.step, Ring.timerStep] at h
          exfalso
          split at h <;> exact hf h
    · by_cases hf : ((Ring.init junk).run hits sched n).kill = true
      · exact before_succ (i2 hf)
      · refine ⟨n, by omega, ?_⟩
        generalize (Ring.init junk).run hits sched n = s at *
        cases ha : sched n with
        | producer =>
          rw [ha] at h
          simp only [Ring.step, Ring.producerStep] at h
          exfalso
          split at h <;> (try exact hf h) <;> split at h <;> (try exact hf h) <;> split at h <;> exact hf h
        | consumer =>
          rw [ha] at h
          simp only [Ring.step, Ring.consumerStep] at h
          exfalso
          split at h <;> (try exact hf h) <;> split at h <;> exact hf h
        | timer =>
          refine ⟨rfl, ?_⟩
          rw [ha] at h
          simp only [Ring.step, Ring.timerStep] at h
          split at h
          · assumption
          · exact absurd h hf
    · by_cases hf : ((Ring.init junk).run hits sched n).clusterDone = true
      · exact before_succ (i3 hf)
      · refine ⟨n, by omega, ?_⟩
        generalize (Ring.init junk).run hits sched n = s at *
        cases ha : sched n with
        | producer =>
          rw [ha] at h
          simp only [Ring.step, Ring.producerStep] at h
          exfalso
          split at h <;> (try exact hf h) <;> split at h <;> (try exact hf h) <;> split at h <;> exact hf h
        | consumer =>
          rw [ha] at h
          simp only [Ring.step, Ring.consumerStep] at h
          cases hc : s.cons with
          | outer =>
            refine ⟨rfl, rfl, ?_⟩
            rw [hc] at h
            simp only at h
            split at h
            · assumption
            · exact absurd h hf
          | inner => rw [hc] at h; simp only at h; split at h <;> exact absurd h hf
          | use => rw [hc] at h; exact absurd h hf
          | advance => rw [hc] at h; exact absurd h hf
          | exited => rw [hc] at h; exact absurd h hf
        | timer =>
          rw [ha] at h
          simp only [Ring.step, Ring.timerStep] at h
          exfalso
          split at h <;> exact hf h

/-- C96, false: when the display has finished a file, `fileparsedone` and `killthread` have been in a data race, also for
a file without hits. -/
theorem c96_false_display_end {α : Type} (hits : List α) (junk : Nat → α) (sched : Nat → RingActor) (n : Nat)
    (h : ((Ring.init junk).run hits sched n).clusterDone = true) :
    RaceOn (ringExecution hits (Ring.init junk) sched n) .fileDone ∧
    RaceOn (ringExecution hits (Ring.init junk) sched n) .kill := by
  obtain ⟨i, hi, his, hic, hik⟩ := (ring_ended hits junk sched n).2.2 h
  obtain ⟨j, hj, hjs, hjf⟩ := (ring_ended hits junk sched i).2.1 hik
  obtain ⟨k, hk, hks, hkp, hkn⟩ := (ring_ended hits junk sched j).1 hjf
  refine ⟨ring_race (w := false) (i := k) (j := j) (by omega) (by omega) (by rw [hks, hjs]; decide) ?_ ?_,
    ring_race (w := false) (i := j) (j := i) (by omega) hi (by rw [hjs, his]; decide) ?_ ?_⟩
  · simp [hks, Ring.touches, hkp, hkn]
  · simp [hjs, Ring.touches]
  · simp [hjs, Ring.touches, hjf]
  · simp [his, Ring.touches, hic]

/-- A consumer at work on a hit has seen, in an earlier step, that the hit was published. -/
theorem ring_looked {α : Type} (hits : List α) (junk : Nat → α) (sched : Nat → RingActor) (n : Nat)
    (h : ((Ring.init junk).run hits sched n).cons = .use) :
    ∃ j < n, sched j = .consumer ∧ ((Ring.init junk).run hits sched j).cons = .inner ∧
      released ((Ring.init junk).run hits sched j) = released ((Ring.init junk).run hits sched n) ∧
      released ((Ring.init junk).run hits sched j) < ((Ring.init junk).run hits sched j).next := by
  induction n with
  | zero => cases h
  | succ n ih =>
    simp only [Ring.run] at h ⊢
    have hinv := ringInv_run hits junk sched n
    generalize hs : (Ring.init junk).run hits sched n = s at *
    have keep : s.cons = .use → released (s.step hits (sched n)) = released s →
        ∃ j < n + 1, sched j = .consumer ∧ ((Ring.init junk).run hits sched j).cons = .inner ∧
          released ((Ring.init junk).run hits sched j) = released (s.step hits (sched n)) ∧
          released ((Ring.init junk).run hits sched j) < ((Ring.init junk).run hits sched j).next := by
      intro hu e
      obtain ⟨j, hj, h1, h2, h3, h4⟩ := ih hu
      exact ⟨j, by omega, h1, h2, by rw [e, h3], h4⟩
    cases ha : sched n with
    | producer =>
      rw [ha] at h keep
      have h1 : (s.step hits .producer).got = s.got ∧ (s.step hits .producer).cons = s.cons := by
        simp only [Ring.step, Ring.producerStep]
        split <;> (try exact ⟨rfl, rfl⟩) <;> split <;> (try exact ⟨rfl, rfl⟩)
        split <;> exact ⟨rfl, rfl⟩
      refine keep (h1.2 ▸ h) ?_
      unfold released
      rw [h1.1, h1.2]
    | timer =>
      rw [ha] at h keep
      have h1 : (s.step hits .timer).got = s.got ∧ (s.step hits .timer).cons = s.cons := by
        simp only [Ring.step, Ring.timerStep]
        split <;> exact ⟨rfl, rfl⟩
      refine keep (h1.2 ▸ h) ?_
      unfold released
      rw [h1.1, h1.2]
    | consumer =>
      rw [ha] at h
      simp only [Ring.step, Ring.consumerStep] at h ⊢
      cases hc : s.cons with
      | inner =>
        rw [hc] at h
        simp only at h
        by_cases hne : s.ci ≠ s.pi
        · refine ⟨n, by omega, ha, by rw [hs, hc], ?_, ?_⟩
          · rw [hs]
            simp only [if_pos hne, released, hc]
            simp
          · rw [hs]
            refine lt_of_le_of_ne hinv.le fun e => hne ?_
            rw [hinv.ci, hinv.pi, e]
        · rw [if_neg hne] at h
          cases h
      | outer => rw [hc] at h; simp only at h; split at h <;> cases h
      | use => rw [hc] at h; cases h
      | advance => rw [hc] at h; cases h
      | exited => rw [hc] at h; exact absurd (hc.symm.trans h) (by decide)

/-- A producer about to copy has seen, in an earlier step, that there is room. -/
theorem ring_checked {α : Type} (hits : List α) (junk : Nat → α) (sched : Nat → RingActor) (n : Nat)
    (h : ((Ring.init junk).run hits sched n).prod = .copy) :
    ∃ j < n, sched j = .producer ∧ ((Ring.init junk).run hits sched j).prod = .check ∧
      ((Ring.init junk).run hits sched j).next = ((Ring.init junk).run hits sched n).next := by
  induction n with
  | zero => cases h
  | succ n ih =>
    simp only [Ring.run] at h ⊢
    generalize hs : (Ring.init junk).run hits sched n = s at *
    have keep : s.prod = .copy → (s.step hits (sched n)).next = s.next →
        ∃ j < n + 1, sched j = .producer ∧ ((Ring.init junk).run hits sched j).prod = .check ∧
          ((Ring.init junk).run hits sched j).next = (s.step hits (sched n)).next := by
      intro hu e
      obtain ⟨j, hj, h1, h2, h3⟩ := ih hu
      exact ⟨j, by omega, h1, h2, by rw [e, h3]⟩
    cases ha : sched n with
    | consumer =>
      rw [ha] at h keep
      have h1 : (s.step hits .consumer).prod = s.prod ∧ (s.step hits .consumer).next = s.next := by
        simp only [Ring.step, Ring.consumerStep]
        split <;> (try exact ⟨rfl, rfl⟩) <;> split <;> exact ⟨rfl, rfl⟩
      exact keep (h1.1 ▸ h) h1.2
    | timer =>
      rw [ha] at h keep
      have h1 : (s.step hits .timer).prod = s.prod ∧ (s.step hits .timer).next = s.next := by
        simp only [Ring.step, Ring.timerStep]
        split <;> exact ⟨rfl, rfl⟩
      exact keep (h1.1 ▸ h) h1.2
    | producer =>
      rw [ha] at h keep
      simp only [Ring.step, Ring.producerStep] at h keep ⊢
      cases hc : s.prod with
      | check =>
        rw [hc] at h
        simp only at h
        by_cases hne : Ring.after s.pi ≠ s.ci
        · refine ⟨n, by omega, ha, by rw [hs, hc], ?_⟩
          rw [hs]
          simp only [if_pos hne]
        · rw [if_neg hne] at h
          cases h
      | wait =>
        rw [hc] at h
        simp only at h
        split at h
        · cases h
        · split at h
          · exact absurd (hc.symm.trans h) (by decide)
          · cases h
      | copy =>
        rw [hc] at h
        rw [hc] at keep
        simp only at h keep ⊢
        split at h
        · simp only [forall_const] at keep ⊢
          rename_i hh
          simp only [hh] at keep ⊢
          exact keep trivial
        · cases h
      | publish => rw [hc] at h; cases h
      | done => rw [hc] at h; exact absurd (hc.symm.trans h) (by decide)

/-- After a copy the producer's next step is to publish. -/
theorem ring_publishes {α : Type} (hits : List α) (s : Ring α) (sched : Nat → RingActor) (p m : Nat)
    (hp : sched p = .producer) (hc : (s.run hits sched p).prod = .copy) (hn : (s.run hits sched p).next < hits.length)
    (hm : p + 1 ≤ m) :
    ((s.run hits sched m).prod = .publish ∧ (s.run hits sched m).next = (s.run hits sched p).next) ∨
      ∃ i, p < i ∧ i < m ∧ sched i = .producer ∧ (s.run hits sched i).prod = .publish := by
  induction m, hm using Nat.le_induction with
  | base =>
    left
    simp only [Ring.run, hp, Ring.step, Ring.producerStep, hc, List.getElem?_eq_getElem hn]
    exact ⟨trivial, trivial⟩
  | succ m hm ih =>
    rcases ih with ⟨h1, h2⟩ | ⟨i, h1, h2, h3⟩
    · cases ha : sched m with
      | producer => exact Or.inr ⟨m, by omega, by omega, ha, h1⟩
      | consumer =>
        left
        simp only [Ring.run, ha, Ring.step, Ring.consumerStep]
        split <;> (try exact ⟨h1, h2⟩) <;> split <;> exact ⟨h1, h2⟩
      | timer =>
        left
        simp only [Ring.run, ha, Ring.step, Ring.timerStep]
        split <;> exact ⟨h1, h2⟩
    · exact Or.inr ⟨i, h1, by omega, h3⟩

/-- After using a hit the consumer's next step is to advance. -/
theorem ring_advances {α : Type} (hits : List α) (s : Ring α) (sched : Nat → RingActor) (q m : Nat)
    (hq : sched q = .consumer) (hc : (s.run hits sched q).cons = .use) (hm : q + 1 ≤ m) :
    ((s.run hits sched m).cons = .advance ∧ released (s.run hits sched m) = released (s.run hits sched q)) ∨
      ∃ i, q < i ∧ i < m ∧ sched i = .consumer ∧ (s.run hits sched i).cons = .advance := by
  induction m, hm using Nat.le_induction with
  | base =>
    left
    simp only [Ring.run, hq, Ring.step, Ring.consumerStep, hc, released]
    simp
  | succ m hm ih =>
    rcases ih with ⟨h1, h2⟩ | ⟨i, h1, h2, h3⟩
    · cases ha : sched m with
      | consumer => exact Or.inr ⟨m, by omega, by omega, ha, h1⟩
      | producer =>
        left
        rw [← h2]
        simp only [Ring.run, ha, Ring.step, Ring.producerStep, released]
        split <;> (try exact ⟨h1, rfl⟩) <;> split <;> (try exact ⟨h1, rfl⟩)
        split <;> exact ⟨h1, rfl⟩
      | timer =>
        left
        rw [← h2]
        simp only [Ring.run, ha, Ring.step, Ring.timerStep, released]
        split <;> exact ⟨h1, rfl⟩
    · exact Or.inr ⟨i, h1, by omega, h3⟩

theorem atomicRing_action {α : Type} (hits : List α) (s : Ring α) (sched : Nat → RingActor) (n k : Nat) (hk : k < n) :
    (atomicRingExecution hits s sched n).actions[k]? =
      some ⟨(sched k).number, ((s.run hits sched k).touches hits (sched k)).filter fun a => a.loc.isSlot⟩ := by
  simp [atomicRingExecution, hk]

theorem atomicRing_length {α : Type} (hits : List α) (s : Ring α) (sched : Nat → RingActor) (n k : Nat) {a : Action RingLoc}
    (h : (atomicRingExecution hits s sched n).actions[k]? = some a) : k < n := by
  have := (List.getElem?_eq_some_iff.mp h).1
  simpa [atomicRingExecution] using this

/-- C96: with atomic indices every access of the program to a place of the ring is still there, and no other. -/
theorem c96_display_places {α : Type} (hits : List α) (s : Ring α) (sched : Nat → RingActor) (n k : Nat) (hk : k < n) :
    ∃ a b, (atomicRingExecution hits s sched n).actions[k]? = some a ∧ (ringExecution hits s sched n).actions[k]? = some b ∧
      a.thread = b.thread ∧ ∀ p, p ∈ a.touches ↔ p ∈ b.touches ∧ ∃ i, p.loc = .slot i := by
  refine ⟨_, ⟨(sched k).number, (s.run hits sched k).touches hits (sched k)⟩, atomicRing_action hits s sched n k hk,
    by simp [ringExecution, hk], rfl, fun p => ?_⟩
  rw [List.mem_filter]
  refine and_congr Iff.rfl ?_
  cases p.loc <;> simp [RingLoc.isSlot]

/-- Steps of one thread are ordered. -/
theorem atomicRing_program {α : Type} (hits : List α) (s : Ring α) (sched : Nat → RingActor) (n : Nat) {i j : Nat}
    (hij : i < j) (hj : j < n) (h : sched i = sched j) : HappensBefore (atomicRingExecution hits s sched n) i j :=
  .program hij (atomicRing_action hits s sched n i (by omega)) (atomicRing_action hits s sched n j hj) (by rw [h])

/-- Who touches a slot: the producer writes it in `copy`, the consumer reads it in `use`. -/
theorem slot_touched {α : Type} {hits : List α} {s : Ring α} {a : RingActor} {p : Access RingLoc} {l : RingLoc}
    (h : p ∈ (s.touches hits a).filter fun a => a.loc.isSlot) (hl : p.loc = l) :
    (a = .producer ∧ s.prod = .copy ∧ s.next < hits.length ∧ l = .slot s.pi ∧ p.write = true) ∨
    (a = .consumer ∧ s.cons = .use ∧ l = .slot s.ci ∧ p.write = false) := by
  obtain ⟨h, hs⟩ := List.mem_filter.mp h
  subst hl
  cases a with
  | producer =>
    left
    simp only [Ring.touches] at h
    cases hp : s.prod <;> rw [hp] at h <;> simp only at h
    · split at h <;> simp at h <;> rcases h with rfl | rfl <;> simp [RingLoc.isSlot] at hs
    · simp at h; rcases h with rfl | rfl <;> simp [RingLoc.isSlot] at hs
    · split at h
      · rename_i hn
        simp at h
        rcases h with rfl | rfl
        · simp [RingLoc.isSlot] at hs
        · exact ⟨rfl, rfl, hn, rfl, rfl⟩
      · simp at h
    · simp at h; rcases h with rfl | rfl <;> simp [RingLoc.isSlot] at hs
    · simp at h
  | consumer =>
    right
    simp only [Ring.touches] at h
    cases hp : s.cons <;> rw [hp] at h <;> simp only at h
    · split at h <;> simp at h <;> rcases h with rfl | rfl <;> simp [RingLoc.isSlot] at hs
    · simp at h; rcases h with rfl | rfl <;> simp [RingLoc.isSlot] at hs
    · simp at h
      rcases h with rfl | rfl
      · simp [RingLoc.isSlot] at hs
      · exact ⟨rfl, rfl, rfl, rfl⟩
    · simp at h; rcases h with rfl | rfl <;> simp [RingLoc.isSlot] at hs
    · simp at h
  | timer =>
    exfalso
    simp only [Ring.touches] at h
    split at h <;> simp at h
    · rcases h with rfl | rfl | rfl <;> simp [RingLoc.isSlot] at hs
    · subst h; simp [RingLoc.isSlot] at hs

/-- C96: were the indices and flags of the display atomic, it would have no data race: the slots are handed over properly. -/
theorem c96_display_atomic {α : Type} (hits : List α) (junk : Nat → α) (sched : Nat → RingActor) (n : Nat) :
    RaceFree (atomicRingExecution hits (Ring.init junk) sched n) := by
  have writeRead : ∀ p q, q < n → p < q → sched p = .producer → ((Ring.init junk).run hits sched p).prod = .copy →
      ((Ring.init junk).run hits sched p).next < hits.length → sched q = .consumer →
      ((Ring.init junk).run hits sched q).cons = .use →
      ((Ring.init junk).run hits sched p).pi = ((Ring.init junk).run hits sched q).ci →
      HappensBefore (atomicRingExecution hits (Ring.init junk) sched n) p q := by
    intro p q hq hpq hps hpc hpn hqs hqc he
    have ip := ringInv_run hits junk sched p
    have iq := ringInv_run hits junk sched q
    have hmono := (ringLe_run hits (Ring.init junk) sched p q (by omega)).next
    have hu := iq.using' (Or.inl hqc)
    have hroom := iq.room
    rw [ip.pi, iq.ci] at he
    obtain ⟨j, hj, hjs, hjc, hjr, hjn⟩ := ring_looked hits junk sched q hqc
    have hlt : ((Ring.init junk).run hits sched p).next < ((Ring.init junk).run hits sched j).next := by
      rw [hjr] at hjn
      omega
    have hpj : p < j := by
      by_contra hcon
      have := (ringLe_run hits (Ring.init junk) sched j p (by omega)).next
      omega
    rcases ring_publishes hits (Ring.init junk) sched p j hps hpc hpn hpj with ⟨-, h⟩ | ⟨i, hi1, hi2, hi3, hi4⟩
    · omega
    · exact .trans (atomicRing_program hits _ sched n hi1 (by omega) (by rw [hps, hi3]))
        (.trans (.sync hi2 (Or.inl ⟨hi3, hi4, hjs, hjc⟩)) (atomicRing_program hits _ sched n hj hq (by rw [hjs, hqs])))
  have readWrite : ∀ p q, p < n → q < p → sched p = .producer → ((Ring.init junk).run hits sched p).prod = .copy →
      sched q = .consumer → ((Ring.init junk).run hits sched q).cons = .use →
      ((Ring.init junk).run hits sched p).pi = ((Ring.init junk).run hits sched q).ci →
      HappensBefore (atomicRingExecution hits (Ring.init junk) sched n) q p := by
    intro p q hp hqp hps hpc hqs hqc he
    have ip := ringInv_run hits junk sched p
    have iq := ringInv_run hits junk sched q
    have hmono := (ringLe_run hits (Ring.init junk) sched q p (by omega)).next
    have hu := iq.using' (Or.inl hqc)
    rw [ip.pi, iq.ci] at he
    obtain ⟨j, hj, hjs, hjc, hjn⟩ := ring_checked hits junk sched p hpc
    have ij := ringInv_run hits junk sched j
    have hfree := (ij.free (Or.inl hjc)).2
    have hlt : released ((Ring.init junk).run hits sched q) < released ((Ring.init junk).run hits sched j) := by
      rw [hjn] at hfree
      omega
    have hqj : q < j := by
      by_contra hcon
      have := (ringLe_run hits (Ring.init junk) sched j q (by omega)).rel
      omega
    rcases ring_advances hits (Ring.init junk) sched q j hqs hqc hqj with ⟨-, h⟩ | ⟨i, hi1, hi2, hi3, hi4⟩
    · omega
    · exact .trans (atomicRing_program hits _ sched n hi1 (by omega) (by rw [hqs, hi3]))
        (.trans (.sync hi2 (Or.inr ⟨hi3, hi4, hjs, hjc⟩)) (atomicRing_program hits _ sched n hj hp (by rw [hjs, hps])))
  rintro l ⟨i, j, a, b, hij, ha, hb, hab, ⟨p, hpa, q, hqb, hpl, hql, hw⟩, hnot, -⟩
  have hi := atomicRing_length _ _ _ _ _ ha
  have hj := atomicRing_length _ _ _ _ _ hb
  rw [atomicRing_action _ _ _ _ _ hi] at ha
  rw [atomicRing_action _ _ _ _ _ hj] at hb
  cases Option.some.inj ha
  cases Option.some.inj hb
  rcases slot_touched hpa hpl with ⟨h1, h2, h3, h4, h5⟩ | ⟨h1, h2, h4, h5⟩ <;>
    rcases slot_touched hqb hql with ⟨g1, g2, g3, g4, g5⟩ | ⟨g1, g2, g4, g5⟩
  · exact hab (by rw [h1, g1])
  · exact hnot (writeRead i j hj hij h1 h2 h3 g1 g2 (by have := h4.symm.trans g4; simpa using this))
  · exact hnot (readWrite j i hj hij g1 g2 h1 h2 (by have := g4.symm.trans h4; simpa using this))
  · exact hab (by rw [h1, g1])

/-! ## Examples -/

/-- Two bodies with a batch each, interleaved: a run as in `c96_loop`. -/
example (p : AbsParams) (solve : List GaussRow → F64 × F64) : IsPartition [[0], [1]] 2 ∧
    ∃ s, ProcCtx.RunBy ⟨.gdc, [], p, solve⟩ (parStart ⟨.gdc, [], p, solve⟩ [⟨Batch.new 0 0 0, []⟩, ⟨Batch.new 0 0 1, []⟩] [[0], [1]])
      [⟨0, 0, .extract⟩, ⟨1, 1, .extract⟩, ⟨0, 0, .reset⟩] s := by
  refine ⟨List.Perm.refl _, ⟨[⟨Batch.new 0 0 0, []⟩, ⟨Batch.new 0 0 1, []⟩],
    [⟨[0], .setMethod, (AbsObj.new p).reset⟩, ⟨[1], .reset, AbsObj.new p⟩]⟩,
    .snoc (s' := ⟨[⟨Batch.new 0 0 0, []⟩, ⟨Batch.new 0 0 1, []⟩], [⟨[0], .reset, AbsObj.new p⟩, ⟨[1], .reset, AbsObj.new p⟩]⟩)
    (.snoc (s' := ⟨[⟨Batch.new 0 0 0, []⟩, ⟨Batch.new 0 0 1, []⟩], [⟨[0], .reset, AbsObj.new p⟩, ⟨[1], .extract, AbsObj.new p⟩]⟩)
    (.snoc (.nil _) ?_) ?_) ?_⟩
  all_goals exact ⟨_, _, _, _, _, _, rfl, rfl, rfl, rfl, rfl, rfl, rfl⟩

/-- C96: the definition does find races, since the bodies of the loop do not wait for each other: two bodies with the same batch. -/
theorem c96_loop_same : RaceOn (loopExecution [⟨0, 0, .extract⟩, ⟨1, 0, .extract⟩]) (.entry 0) :=
  raceOn_of_nosync (i := 0) (j := 1) (fun _ _ h => h) rfl rfl (by decide)
    ⟨⟨.entry 0, true⟩, by decide, ⟨.entry 0, false⟩, by decide, rfl, rfl, Or.inl rfl⟩

/-- One hit through the streaming program, the threads taking turns: the hypotheses of `c96_false_stream`. -/
example : ((StreamSys.init true [7]).run (fun k => k % 2 == 0) 8).phase ≠ .test ∧
    ((StreamSys.init true [7]).run (fun k => k % 2 == 0) 8).phase ≠ .tryDequeue := by decide

/-- One hit through the ring, the threads taking turns: the hypotheses of `c96_false_display` and of
`c96_false_display_end`. -/
example : ((Ring.init fun _ => 0).run [7] (fun k => if k % 3 = 0 then .producer else if k % 3 = 1 then .consumer else .timer) 60).got
      = [7] ∧
    ((Ring.init fun _ => 0).run [7] (fun k => if k % 3 = 0 then .producer else if k % 3 = 1 then .consumer else .timer) 60).clusterDone
      = true := by decide +kernel

end Verif.Props
