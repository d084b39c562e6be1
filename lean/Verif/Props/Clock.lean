import Verif.Lemmas.Tpx3

/-!
# Properties of the running timestamps (C08-C10)
-/

namespace Verif.Props

open Verif Verif.Spec

/-! ## C08: trigger time in global-clock mode -/

/-- C08: after a trigger packet the trigger timestamp is the extension of the packet's counter to the first
time not before the global timestamp, reduced modulo 2^48; the other timestamps stay. -/
theorem c08_trigger (e : Bool) (chip : Int) (w : U64) (c : Clock) (hw : IsTriggerPacket w) :
    (∃ t, IsTrigger (field w 12 32) c.gdc.toNat t ∧ (step .gdc e chip w c).1.tdc.toNat = t % 2 ^ 48) ∧
    (step .gdc e chip w c).1.gdc = c.gdc ∧ (step .gdc e chip w c).1.timer = c.timer := by
  have hs : (step .gdc e chip w c).1 = { c with tdc := updateTdcGdc w c.gdc } := by
    show (stepGdc e chip w c).1 = _
    unfold stepGdc
    rw [if_pos ((isTdc_iff w).mpr hw)]
  rw [hs]
  refine ⟨⟨c.gdc.toNat + (field w 12 32 + 2 ^ 32 - c.gdc.toNat % 2 ^ 32) % 2 ^ 32, ?_, ?_⟩, rfl, rfl⟩
  · have : field w 12 32 < 2 ^ 32 := by unfold field; omega
    unfold IsTrigger
    omega
  · show (updateTdcGdc w c.gdc).toNat = _
    rw [updateTdcGdc_toNat]
    rfl

/-- Below 2^48 - 2^32 there is no reduction: the trigger time is the extension itself. -/
theorem c08_trigger_unreduced (e : Bool) (chip : Int) (w : U64) (c : Clock) (hw : IsTriggerPacket w)
    (hg : c.gdc.toNat < 2 ^ 48 - 2 ^ 32) :
    IsTrigger (field w 12 32) c.gdc.toNat (step .gdc e chip w c).1.tdc.toNat := by
  obtain ⟨⟨t, h1, h2⟩, _⟩ := c08_trigger e chip w c hw
  rw [h2, Nat.mod_eq_of_lt]
  · exact h1
  · unfold IsTrigger at h1; omega

/-- A trigger with counter 5, just after the roll-over of the counter. -/
example : IsTriggerPacket 0x6F00000000005000#64 ∧
    (step .gdc true 0 0x6F00000000005000#64 ⟨0, 0x1FFFFFFF0#64, 0⟩).1.tdc = 0x200000005#64 := by decide

/-! ## C09: trigger roll-over in trigger-only mode -/

/-- Allowed step of the true trigger time: forward by less than 2^31, or, if the last one was at a multiple of
2^32 (in particular at the start, 0), by less than 2^32. -/
def TriggerStep (a b : Nat) : Prop := a ≤ b ∧ b < a + (if a % 2 ^ 32 = 0 then 2 ^ 32 else 2 ^ 31)

theorem rollTime_step (a b : Nat) (h : TriggerStep a b) (hb : b < 2 ^ 48) :
    rollTime (b % 2 ^ 32) a = b := by
  unfold TriggerStep at h
  unfold rollTime
  simp only [Nat.reducePow] at *
  split_ifs at * <;> omega

theorem timesT_history (t : Times) (ts : List Nat) (ws : List U64)
    (hstep : List.IsChain TriggerStep (t.tdc :: ts)) (hlt : ∀ x ∈ ts, x < 2 ^ 48)
    (hws : (ws.filter (fun w => IsTriggerPacket w)).map (field · 12 32) = ts.map (· % 2 ^ 32)) :
    (timesT t ws).tdc = (t.tdc :: ts).getLast (by simp) := by
  induction ws generalizing t ts with
  | nil =>
    have : ts = [] := by simpa using hws.symm
    subst this
    rfl
  | cons w ws ih =>
    rw [timesT_cons]
    by_cases hw : IsTriggerPacket w
    · rw [List.filter_cons_of_pos (by simpa using hw), List.map_cons] at hws
      cases ts with
      | nil => simp at hws
      | cons x xs =>
        rw [List.map_cons, List.cons.injEq] at hws
        rw [List.isChain_cons_cons] at hstep
        have hx : (nextT w t).tdc = x := by
          unfold nextT
          rw [if_pos hw]
          show rollTime (field w 12 32) t.tdc = x
          rw [hws.1, rollTime_step _ _ hstep.1 (hlt x (by simp))]
        have := ih (nextT w t) xs (by rw [hx]; exact hstep.2) (fun y hy => hlt y (by simp [hy])) hws.2
        rw [this]
        simp only [hx]
        rw [List.getLast_cons (a := t.tdc) (by simp)]
    · rw [List.filter_cons_of_neg (by simpa using hw)] at hws
      have hn : nextT w t = t := if_neg hw
      rw [hn]
      exact ih t ts hstep hlt hws

/-- C09: if the trigger packets of a batch carry the low 32 bits of true trigger times that follow the start
timestamp in allowed steps and stay below 2^48, then `updateTimestamp` ends with the last true time (and, the
batch being arbitrary, with every one of them on the way).  Other packets may be interspersed. -/
theorem c09_rollover (buf : Bytes) (b : Batch) (c : Clock) (ts : List Nat)
    (hdef : buf.length % 8 = b.index % 8 ∨ b.index + 8 + 8 * b.numPackets ≤ buf.length)
    (hstep : List.IsChain TriggerStep (c.tdc.toNat :: ts)) (hlt : ∀ x ∈ ts, x < 2 ^ 48)
    (hws : ((batchPackets buf b.index b.numPackets).filter (fun w => IsTriggerPacket w)).map (field · 12 32) =
      ts.map (· % 2 ^ 32)) :
    ∃ b' c', updateTimestamp .tdc buf b c = .ok (b', c') ∧
      c'.tdc.toNat = (c.tdc.toNat :: ts).getLast (by simp) := by
  rw [updateTimestamp_eq, if_neg (by unfold reachesPartial; omega)]
  refine ⟨_, _, rfl, ?_⟩
  have h1 := (runTdc_spec b.chip (batchPackets buf b.index b.numPackets) c).1
  have h2 := timesT_history c.times ts _ hstep hlt hws
  rw [← h1] at h2
  exact h2

/-- True times that pass two roll-overs. -/
example : List.IsChain TriggerStep [0, 2 ^ 32 - 10, 2 ^ 32 + 7, 2 ^ 32 + 2 ^ 31, 2 ^ 33 - 5, 2 ^ 33 + 1] := by
  unfold TriggerStep
  decide

/-- Out of order triggers are not covered, and indeed go wrong: true times 2^32 + 5 and then 2^32 - 5 come out
as 2^32 + 5 and 2^33 - 5. -/
theorem c09_backward_witness :
    IsTriggerPacket 0x6F000FFFFFFFB000#64 ∧ field 0x6F000FFFFFFFB000#64 12 32 = (2 ^ 32 - 5) % 2 ^ 32 ∧
    (step .tdc false 0 0x6F000FFFFFFFB000#64 ⟨BitVec.ofNat 64 (2 ^ 32 + 5), 0, 0⟩).1.tdc.toNat = 2 ^ 33 - 5 := by
  decide

/-- A step of 2^31 or more past a roll-over is not noticed: true times 5 and then 2^32 + 2^31 + 6. -/
theorem c09_gap_witness :
    IsTriggerPacket 0x6F00080000006000#64 ∧
    field 0x6F00080000006000#64 12 32 = (2 ^ 32 + 2 ^ 31 + 6) % 2 ^ 32 ∧
    (step .tdc false 0 0x6F00080000006000#64 ⟨5, 0, 0⟩).1.tdc.toNat = 2 ^ 31 + 6 := by
  decide

/-- The step of the true trigger time that the code follows: the time has 48 bits, and the number of
roll-overs passed is one if the counter fell by more than 2^31 and none otherwise. -/
def FollowedStep (a b : Nat) : Prop :=
  b / 2 ^ 32 = a / 2 ^ 32 % 2 ^ 16 + (if b % 2 ^ 32 + 2 ^ 31 < a % 2 ^ 32 then 1 else 0)

theorem rollTime_iff (a b : Nat) : rollTime (b % 2 ^ 32) a = b ↔ FollowedStep a b := by
  unfold FollowedStep rollTime
  simp only [Nat.reducePow] at *
  split_ifs <;> omega

/-- The trigger times that trigger-only mode assigns to counters, one after the other. -/
def rolledTimes (t : Nat) : List Nat → List Nat
  | [] => []
  | m :: ms => rollTime m t :: rolledTimes (rollTime m t) ms

/-- C09, exact condition: the times after the trigger packets of a list of packets are the true times `ts` if
and only if each one follows its predecessor (the first one the time at the start) by a step that is followed. -/
theorem c09_rollover_iff (t : Nat) (ts : List Nat) :
    rolledTimes t (ts.map (· % 2 ^ 32)) = ts ↔ List.IsChain FollowedStep (t :: ts) := by
  induction ts generalizing t with
  | nil => simp [rolledTimes]
  | cons x xs ih =>
    rw [List.map_cons, rolledTimes, List.cons.injEq, List.isChain_cons_cons, rollTime_iff]
    constructor
    · rintro ⟨h1, h2⟩
      rw [(rollTime_iff t x).2 h1] at h2
      exact ⟨h1, (ih x).1 h2⟩
    · rintro ⟨h1, h2⟩
      rw [(rollTime_iff t x).2 h1]
      exact ⟨h1, (ih x).2 h2⟩

/-- C09: the times of `rolledTimes` are those of the program.  After the packets of a batch up to any place,
`updateTimestamp` has the time that `rolledTimes` gives for the last trigger packet before that place. -/
theorem c09_times (buf : Bytes) (b : Batch) (c : Clock)
    (hdef : buf.length % 8 = b.index % 8 ∨ b.index + 8 + 8 * b.numPackets ≤ buf.length) :
    ∃ b' c', updateTimestamp .tdc buf b c = .ok (b', c') ∧
      c'.tdc.toNat = (c.tdc.toNat :: rolledTimes c.tdc.toNat
        (((batchPackets buf b.index b.numPackets).filter (fun w => IsTriggerPacket w)).map
          (field · 12 32))).getLast (by simp) := by
  rw [updateTimestamp_eq, if_neg (by unfold reachesPartial; omega)]
  refine ⟨_, _, rfl, ?_⟩
  have h1 := (runTdc_spec b.chip (batchPackets buf b.index b.numPackets) c).1
  have key : ∀ (ws : List U64) (t : Times), (timesT t ws).tdc =
      (t.tdc :: rolledTimes t.tdc ((ws.filter (fun w => IsTriggerPacket w)).map (field · 12 32))).getLast
        (by simp) := by
    intro ws
    induction ws with
    | nil => intro t; rfl
    | cons w ws ih =>
      intro t
      rw [timesT_cons, ih]
      by_cases hw : IsTriggerPacket w
      · have hn : (nextT w t).tdc = rollTime (field w 12 32) t.tdc := by unfold nextT; rw [if_pos hw]
        simp only [hn, List.filter_cons_of_pos (p := fun w => decide (IsTriggerPacket w)) (decide_eq_true hw),
          List.map_cons, rolledTimes]
        rw [List.getLast_cons (a := t.tdc) (by simp)]
      · have hn : nextT w t = t := if_neg hw
        simp only [hn, List.filter_cons_of_neg (p := fun w => decide (IsTriggerPacket w)) (by simpa using hw)]
  have h2 := key (batchPackets buf b.index b.numPackets) c.times
  rw [← h1] at h2
  exact h2

/-- Times that are followed, with a step of more than 2^31 within a turn of the counter and one across it. -/
example : List.IsChain FollowedStep [3, 2 ^ 32 - 10, 2 ^ 32 + 7, 2 ^ 33 - 5, 2 ^ 33 + 1] ∧
    ¬ FollowedStep 5 (2 ^ 32 + 2 ^ 31 + 6) := by
  unfold FollowedStep
  decide

/-! ## C10: global timestamp -/

/-- C10, assembly: a low-half packet followed by a high-half packet (with no other global-time packet between)
sets the global timestamp to `high * 2^32 + low`, unless that is zero. -/
theorem c10_assembly (e : Bool) (chip : Int) (wl wh : U64) (ws : List U64) (c : Clock)
    (hl : IsGlobalPacket wl ∧ field wl 56 4 = 4) (hh : IsGlobalPacket wh ∧ field wh 56 4 = 5)
    (hws : ∀ w ∈ ws, ¬ IsGlobalPacket w) (hc : c.timer.toNat < 2 ^ 32) :
    let c' := (runPackets .gdc e chip (wl :: ws ++ [wh]) c).1
    c'.gdc.toNat = if field wh 16 16 * 2 ^ 32 + field wl 16 32 = 0 then c.gdc.toNat
      else field wh 16 16 * 2 ^ 32 + field wl 16 32 := by
  intro c'
  have h1 : c'.times = timesG c.times (wl :: ws ++ [wh]) := by
    rw [show c' = (runPackets .gdc true chip (wl :: ws ++ [wh]) c).1 from runPackets_clock ..]
    exact (runGdc_spec chip _ c hc).1
  have hmid : ∀ (vs : List U64) (t : Times), (∀ w ∈ vs, ¬ IsGlobalPacket w) →
      (timesG t vs).gdc = t.gdc ∧ (timesG t vs).low = t.low := by
    intro vs
    induction vs with
    | nil => intro t _; exact ⟨rfl, rfl⟩
    | cons v vs ih =>
      intro t hv
      have := ih (nextG v t) (fun w hw => hv w (by simp [hw]))
      rw [timesG_cons, this.1, this.2]
      have hnv := hv v (by simp)
      unfold nextG
      split_ifs
      · exact ⟨rfl, rfl⟩
      · exact ⟨rfl, rfl⟩
  have hg : c'.gdc.toNat = c'.times.gdc := rfl
  rw [hg, h1]
  have hsplit : timesG c.times (wl :: ws ++ [wh]) = nextG wh (timesG (nextG wl c.times) ws) := by
    unfold timesG
    rw [List.cons_append, List.foldl_cons, List.foldl_append]
    rfl
  have ntl : ¬ IsTriggerPacket wl := fun h => (trigger_not_hit wl h).2 hl.1
  have nth : ¬ IsTriggerPacket wh := fun h => (trigger_not_hit wh h).2 hh.1
  have hfirst : nextG wl c.times = { c.times with low := field wl 16 32 } := by
    unfold nextG
    rw [if_neg ntl, if_pos hl.1, if_pos hl.2]
  rw [hsplit]
  obtain ⟨m1, m2⟩ := hmid ws (nextG wl c.times) hws
  rw [hfirst] at m1 m2 ⊢
  unfold nextG
  rw [if_neg nth, if_pos hh.1, if_neg (by omega)]
  rw [m2]
  by_cases h0 : field wh 16 16 * 2 ^ 32 + field wl 16 32 = 0
  · rw [if_neg (fun h => h.2 h0), if_pos h0, m1]
    rfl
  · rw [if_pos ⟨hh.2, h0⟩, if_neg h0]

/-- C10, invariant: over any packets, the global timestamp stays below 2^48 and the low half below 2^32, a
non-zero global timestamp stays non-zero, and without global-time packets nothing changes. -/
theorem c10_invariant (buf : Bytes) (b b' : Batch) (c c' : Clock) (hc : c.timer.toNat < 2 ^ 32)
    (hg : c.gdc.toNat < 2 ^ 48) (h : updateTimestamp .gdc buf b c = .ok (b', c')) :
    c'.timer.toNat < 2 ^ 32 ∧ c'.gdc.toNat < 2 ^ 48 ∧ (c.gdc ≠ 0 → c'.gdc ≠ 0) ∧
    ((∀ w ∈ batchPackets buf b.index b.numPackets, ¬ IsGlobalPacket w) → c'.gdc = c.gdc ∧ c'.timer = c.timer) := by
  rw [updateTimestamp_eq] at h
  split_ifs at h with hp
  have hc' : c' = (runPackets .gdc true b.chip (batchPackets buf b.index b.numPackets) c).1 := by
    injection h with h; injection h with _ h; exact h.symm
  obtain ⟨r1, r2, _⟩ := runGdc_spec b.chip (batchPackets buf b.index b.numPackets) c hc
  rw [← hc'] at r1 r2
  have key : ∀ (ws : List U64) (t : Times), t.gdc < 2 ^ 48 → t.low < 2 ^ 32 →
      (timesG t ws).gdc < 2 ^ 48 ∧ (t.gdc ≠ 0 → (timesG t ws).gdc ≠ 0) ∧
      ((∀ w ∈ ws, ¬ IsGlobalPacket w) → (timesG t ws).gdc = t.gdc ∧ (timesG t ws).low = t.low) := by
    intro ws
    induction ws with
    | nil => intro t h1 _; exact ⟨h1, id, fun _ => ⟨rfl, rfl⟩⟩
    | cons w ws ih =>
      intro t h1 h2
      have hn : (nextG w t).gdc < 2 ^ 48 ∧ (nextG w t).low < 2 ^ 32 ∧ (t.gdc ≠ 0 → (nextG w t).gdc ≠ 0) ∧
          (¬ IsGlobalPacket w → (nextG w t).gdc = t.gdc ∧ (nextG w t).low = t.low) := by
        have e1 : field w 16 32 < 2 ^ 32 := by unfold field; omega
        have e2 : field w 16 16 < 2 ^ 16 := by unfold field; omega
        unfold nextG
        split_ifs with a1 a2 a3 a4
        · exact ⟨h1, h2, id, fun _ => ⟨rfl, rfl⟩⟩
        · exact ⟨h1, e1, id, fun h => absurd a2 h⟩
        · refine ⟨?_, h2, fun _ => a4.2, fun h => absurd a2 h⟩
          show field w 16 16 * 2 ^ 32 + t.low < 2 ^ 48
          omega
        · exact ⟨h1, h2, id, fun _ => ⟨rfl, rfl⟩⟩
        · exact ⟨h1, h2, id, fun _ => ⟨rfl, rfl⟩⟩
      obtain ⟨i1, i2, i3⟩ := ih (nextG w t) hn.1 hn.2.1
      rw [timesG_cons]
      refine ⟨i1, fun h => i2 (hn.2.2.1 h), fun h => ?_⟩
      have j := i3 (fun v hv => h v (by simp [hv]))
      have k := hn.2.2.2 (h w (by simp))
      exact ⟨j.1.trans k.1, j.2.trans k.2⟩
  have hk := key (batchPackets buf b.index b.numPackets) c.times hg hc
  rw [← r1] at hk
  refine ⟨r2, hk.1, ?_, ?_⟩
  · intro h0 h1
    refine hk.2.1 ?_ ?_
    · intro hz; exact h0 (BitVec.eq_of_toNat_eq hz)
    · show c'.gdc.toNat = 0
      rw [h1]; rfl
  · intro hw
    have := hk.2.2 hw
    exact ⟨BitVec.eq_of_toNat_eq this.1, BitVec.eq_of_toNat_eq this.2⟩

/-- A low half of 0xDEADBEEF and a high half of 0x123. -/
example :
    (runPackets .gdc false 0 [0x4400DEADBEEF0000#64, 0xB000000000000000#64, 0x4500000001230000#64] Clock.zero).1.gdc =
      0x123DEADBEEF#64 := by decide

end Verif.Props
