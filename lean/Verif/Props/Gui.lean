import Verif.Spec.Gui
import Verif.Props.LegacyAbs
import Verif.Props.LegacyStream

/-! # The graphical program (C72, C73) -/

namespace Verif.Props

open Verif Verif.Spec

/-! ## C72: the files the user chooses are read -/

/-- With the timer active nothing has any effect. -/
theorem gui_locked (solve : List GaussRow → F64 × F64) (cos sin : F64) (g : Gui) (h : g.timer = true) (as : List GuiAction) :
    g.run solve cos sin as = .ok (g, []) := by
  induction as with
  | nil => rfl
  | cons a as ih =>
    have ha : g.act solve cos sin a = .ok (g, []) := by
      cases a with
      | read c => simp [Gui.act, Gui.readFile, h, Res.bind]
      | save p e => simp [Gui.act, Gui.save, h, Res.bind]
      | range => rfl
    simp only [Gui.run, bind, Res.bind, ha, ih]
    rfl

/-- C72 is false: after the user has cancelled the dialog once, no file is read and nothing is saved any more, whatever the
user does. -/
theorem c72_false (solve : List GaussRow → F64 × F64) (cos sin : F64) (as : List GuiAction) :
    Gui.init.run solve cos sin (.read .cancelled :: as) = .ok ({ Gui.init with timer := true }, []) := by
  have h1 : Gui.init.act solve cos sin (.read .cancelled) = .ok ({ Gui.init with timer := true }, []) := by
    simp [Gui.act, Gui.readFile, Gui.init, Res.bind]
  simp only [Gui.run, bind, Res.bind, h1]
  rw [gui_locked _ _ _ _ rfl]
  rfl

theorem act_timer {solve : List GaussRow → F64 × F64} {cos sin : F64} {g : Gui} {a : GuiAction} {r : Gui × List GuiOutput}
    (hg : g.timer = false) (ha : ¬ IsCancelledRead a) (h : g.act solve cos sin a = .ok r) : r.1.timer = false := by
  cases a with
  | read c =>
    cases c with
    | cancelled => exact absurd trivial ha
    | unreadable => simp [Gui.act, Gui.readFile, hg, Res.bind] at h
    | file content =>
      simp only [Gui.act] at h
      obtain ⟨g', h1, h2⟩ : ∃ g', g.readFile solve cos sin (.file content) = .ok g' ∧ .ok (g', []) = Res.ok r := by
        cases hr : g.readFile solve cos sin (.file content) with
        | ok g' => rw [hr] at h; exact ⟨g', rfl, h⟩
        | throws e => rw [hr] at h; simp [Res.bind] at h
        | ub u => rw [hr] at h; simp [Res.bind] at h
      simp only [Res.ok.injEq] at h2
      subst h2
      simp only [Gui.readFile, hg, Bool.false_eq_true, if_false, bind, Res.bind] at h1
      split at h1 <;> try simp at h1
      split at h1 <;> try simp at h1
      split at h1 <;> try simp at h1
      split at h1 <;> try simp at h1
      subst h1
      rfl
  | save p e =>
    simp only [Gui.act] at h
    cases hs : g.save p e with
    | ok out => rw [hs] at h; simp only [Res.bind, Res.ok.injEq] at h; subst h; exact hg
    | throws e => rw [hs] at h; simp [Res.bind] at h
    | ub u => rw [hs] at h; simp [Res.bind] at h
  | range => simp only [Gui.act, Res.ok.injEq] at h; subst h; exact hg

theorem run_cons {solve : List GaussRow → F64 × F64} {cos sin : F64} {g : Gui} {a : GuiAction} {as : List GuiAction}
    {r : Gui × List GuiOutput} (h : g.run solve cos sin (a :: as) = .ok r) :
    ∃ r1 r2, g.act solve cos sin a = .ok r1 ∧ r1.1.run solve cos sin as = .ok r2 ∧ r = (r2.1, r1.2 ++ r2.2) := by
  simp only [Gui.run, bind, Res.bind] at h
  cases h1 : g.act solve cos sin a with
  | throws e => rw [h1] at h; simp at h
  | ub u => rw [h1] at h; simp at h
  | ok r1 =>
    rw [h1] at h
    simp only at h
    cases h2 : r1.1.run solve cos sin as with
    | throws e => rw [h2] at h; simp at h
    | ub u => rw [h2] at h; simp at h
    | ok r2 =>
      rw [h2] at h
      simp only [Res.ok.injEq] at h
      exact ⟨r1, r2, rfl, h2, h.symm⟩

theorem run_timer {solve : List GaussRow → F64 × F64} {cos sin : F64} {g : Gui} {as : List GuiAction}
    {r : Gui × List GuiOutput} (hg : g.timer = false) (ha : ∀ a ∈ as, ¬ IsCancelledRead a)
    (h : g.run solve cos sin as = .ok r) : r.1.timer = false := by
  induction as generalizing g r with
  | nil => simp only [Gui.run, Res.ok.injEq] at h; subst h; exact hg
  | cons a as ih =>
    obtain ⟨r1, r2, h1, h2, rfl⟩ := run_cons h
    exact ih (r := r2) (act_timer hg (ha a (by simp)) h1) (fun b hb => ha b (by simp [hb])) h2

theorem altRun_bounds (ps : List (Int × U64)) (r : Rollover) (hp : r.prev.toNat < 2 ^ 30)
    (hc : r.counter.toNat + ps.length < 2 ^ 29) :
    ∀ h ∈ altRun r ps, h.spidertime.toNat < 2 ^ 59 ∧ h.tof ≠ none := by
  induction ps generalizing r with
  | nil => simp [altRun]
  | cons p ps ih =>
    simp only [List.length_cons] at hc
    obtain ⟨e1, e2, f, hf, -⟩ := alt_toNat p.2 r p.1
    have hlt : clock30 p.2 < 2 ^ 30 := by rw [clock30_eq]; exact rawSpider_lt p.2
    have hsp : (BitVec.ofNat 64 (clock30 p.2)).toNat = clock30 p.2 := by rw [BitVec.toNat_ofNat]; omega
    have hn := next_toNat r (BitVec.ofNat 64 (clock30 p.2)) hp (by omega)
    have hnle : (r.next (BitVec.ofNat 64 (clock30 p.2))).toNat ≤ r.counter.toNat + 1 := by
      rw [hn]
      split_ifs <;> omega
    intro h hh
    rw [altRun] at hh
    rcases List.mem_cons.mp hh with rfl | hh
    · refine ⟨?_, by rw [hf]; simp⟩
      rw [e2]
      generalize (r.next (BitVec.ofNat 64 (clock30 p.2))).toNat = m at hnle
      omega
    · rw [e1] at hh
      exact ih _ (by simp only; omega) (by simp only; omega) h hh

theorem altRun_length (ps : List (Int × U64)) (r : Rollover) : (altRun r ps).length = ps.length := by
  induction ps generalizing r with
  | nil => rfl
  | cons p ps ih => simp [altRun, ih]

theorem altRun_decoded (ps : List (Int × U64)) (r : Rollover) : ∀ h ∈ altRun r ps, Decoded h := by
  induction ps generalizing r with
  | nil => simp [altRun]
  | cons p ps ih =>
    intro h hh
    rw [altRun] at hh
    rcases List.mem_cons.mp hh with rfl | hh
    · obtain ⟨-, -, f, hf, hf'⟩ := alt_toNat p.2 r p.1
      obtain ⟨h1, h2, h3, h4⟩ := (c49_alt p.2 0#64 0#64 p.1 r).2.2
      simp only at h4
      have hx : 0 ≤ (packetToHitAlt p.2 r p.1).1.x ∧ (packetToHitAlt p.2 r p.1).1.x < 1024 ∧
          0 ≤ (packetToHitAlt p.2 r p.1).1.y ∧ (packetToHitAlt p.2 r p.1).1.y < 1024 := by
        unfold field at h4
        split_ifs at h4 <;> simp only [Prod.mk.injEq] at h4 <;> omega
      refine ⟨⟨hx.1, hx.2.1⟩, hx.2.2, ?_, f, hf, ?_⟩
      · rw [h1]; unfold field; omega
      · rw [hf']; omega
    · exact ih _ h hh

theorem act_alg {solve : List GaussRow → F64 × F64} {cos sin : F64} {g : Gui} {a : GuiAction} {r : Gui × List GuiOutput}
    (h : g.act solve cos sin a = .ok r) : r.1.alg.params = g.alg.params ∧ r.1.alg.method = g.alg.method := by
  cases a with
  | read c =>
    simp only [Gui.act] at h
    cases hr : g.readFile solve cos sin c with
    | throws e => rw [hr] at h; simp [Res.bind] at h
    | ub u => rw [hr] at h; simp [Res.bind] at h
    | ok g' =>
      rw [hr] at h
      simp only [Res.bind, Res.ok.injEq] at h
      subst h
      unfold Gui.readFile at hr
      split_ifs at hr
      · simp only [Res.ok.injEq] at hr; subst hr; exact ⟨rfl, rfl⟩
      · cases c with
        | cancelled => simp only [Res.ok.injEq] at hr; subst hr; exact ⟨rfl, rfl⟩
        | unreadable => simp at hr
        | file content =>
          simp only [bind, Res.bind] at hr
          split at hr <;> try simp at hr
          rename_i hits _
          cases hf : g.alg.legacyFit hits with
          | throws e => rw [hf] at hr; simp at hr
          | ub u => rw [hf] at hr; simp at hr
          | ok alg =>
            rw [hf] at hr
            simp only at hr
            split at hr <;> try simp at hr
            split at hr <;> try simp at hr
            subst hr
            have := (fitWith_inv (by decide) hf).choose_spec.choose_spec.choose_spec.2
            exact ⟨this.1, this.2.1⟩
  | save p e =>
    simp only [Gui.act] at h
    cases hs : g.save p e with
    | ok out => rw [hs] at h; simp only [Res.bind, Res.ok.injEq] at h; subst h; exact ⟨rfl, rfl⟩
    | throws e => rw [hs] at h; simp [Res.bind] at h
    | ub u => rw [hs] at h; simp [Res.bind] at h
  | range => simp only [Gui.act, Res.ok.injEq] at h; subst h; exact ⟨rfl, rfl⟩

theorem run_alg {solve : List GaussRow → F64 × F64} {cos sin : F64} {g : Gui} {as : List GuiAction}
    {r : Gui × List GuiOutput} (h : g.run solve cos sin as = .ok r) :
    r.1.alg.params = g.alg.params ∧ r.1.alg.method = g.alg.method := by
  induction as generalizing g r with
  | nil => simp only [Gui.run, Res.ok.injEq] at h; subst h; exact ⟨rfl, rfl⟩
  | cons a as ih =>
    obtain ⟨r1, r2, h1, h2, rfl⟩ := run_cons h
    have e1 := act_alg h1
    have e2 := ih (r := r2) h2
    exact ⟨e2.1.trans e1.1, e2.2.trans e1.2⟩

/-! ### The picture -/

theorem ofRat_zero : F64.ofRat 0 = .fin 0 := by
  have := F64.ofRat_int (n := 0) (by norm_num); simpa using this

theorem ofInt_512 : F64.ofInt 512 = .fin 512 := by
  have := F64.ofInt_exact (n := 512) (by norm_num); simpa using this

theorem floor_512 {x : ℚ} (h0 : 0 ≤ x) (h1 : x < 512) : (F64.fin x).toI32? = some ⌊x⌋ ∧ 0 ≤ ⌊x⌋ ∧ ⌊x⌋ < 512 := by
  have f0 : 0 ≤ ⌊x⌋ := Int.floor_nonneg.mpr h0
  have f1 : ⌊x⌋ < 512 := by rw [Int.floor_lt]; exact_mod_cast h1
  have et : F64.truncQ x = ⌊x⌋ := by unfold F64.truncQ; rw [if_pos h0]
  refine ⟨?_, f0, f1⟩
  unfold F64.toI32?
  simp only [et]
  rw [if_pos ⟨by omega, by omega⟩]

theorem inFrame {a : F64} (h : (F64.le (F64.ofRat 0) a && F64.lt a (F64.ofInt 512)) = true) :
    ∃ x : ℚ, a = .fin x ∧ 0 ≤ x ∧ x < 512 := by
  rw [ofRat_zero, ofInt_512, Bool.and_eq_true] at h
  cases a with
  | nan => simp [F64.le] at h
  | inf s => cases s <;> simp [F64.le, F64.lt] at h
  | fin x =>
    simp only [F64.le, F64.lt, decide_eq_true_eq] at h
    exact ⟨x, rfl, h.1, h.2⟩

/-- One event adds one to its cell and nothing else, and never writes out of bounds. -/
theorem addEvent_ok (cos sin : F64) (h : Nat → F64) (e : Neutron) :
    ∃ h', Gui.addEvent cos sin h e = .ok h' ∧ ∀ i j : Nat, i < 512 → j < 512 →
      (InCell cos sin i j e → h' (512 * i + j) = F64.add (h (512 * i + j)) (F64.ofRat 1)) ∧
      (¬ InCell cos sin i j e → h' (512 * i + j) = h (512 * i + j)) := by
  unfold Gui.addEvent Gui.turned
  simp only
  split_ifs with hc
  · rw [Bool.and_eq_true, Bool.and_eq_true, Bool.and_eq_true] at hc
    obtain ⟨x, ex, x0, x1⟩ := inFrame (a := F64.sub (F64.mul e.x cos) (F64.mul e.y sin)) (by rw [Bool.and_eq_true]; exact hc.1.1)
    obtain ⟨y, ey, y0, y1⟩ := inFrame (a := F64.add (F64.mul e.x sin) (F64.mul e.y cos)) (by rw [Bool.and_eq_true]; exact ⟨hc.1.2, hc.2⟩)
    obtain ⟨tx, fx0, fx1⟩ := floor_512 x0 x1
    obtain ⟨ty, fy0, fy1⟩ := floor_512 y0 y1
    rw [ex, ey, tx, ty]
    simp only
    rw [if_pos ⟨by omega, by omega⟩]
    refine ⟨_, rfl, fun i j hi hj => ?_⟩
    have key : InCell cos sin i j e ↔ ⌊x⌋ = i ∧ ⌊y⌋ = j := by
      constructor
      · rintro ⟨x', y', ex', ey', a1, a2, b1, b2⟩
        rw [ex] at ex'; rw [ey] at ey'
        injection ex' with ex'; injection ey' with ey'
        subst ex'; subst ey'
        exact ⟨Int.floor_eq_iff.mpr ⟨by exact_mod_cast a1, by exact_mod_cast a2⟩,
          Int.floor_eq_iff.mpr ⟨by exact_mod_cast b1, by exact_mod_cast b2⟩⟩
      · rintro ⟨e1, e2⟩
        obtain ⟨a1, a2⟩ := Int.floor_eq_iff.mp e1
        obtain ⟨b1, b2⟩ := Int.floor_eq_iff.mp e2
        exact ⟨x, y, ex, ey, by exact_mod_cast a1, by exact_mod_cast a2, by exact_mod_cast b1, by exact_mod_cast b2⟩
    rw [key]
    constructor
    · rintro ⟨e1, e2⟩
      have : (512 * ⌊x⌋ + ⌊y⌋).toNat = 512 * i + j := by omega
      rw [this, Function.update_self]
    · intro hn
      rw [Function.update_of_ne]
      intro he
      apply hn
      omega
  · refine ⟨h, rfl, fun i j hi hj => ⟨fun hin => ?_, fun _ => rfl⟩⟩
    exfalso
    apply hc
    obtain ⟨x, y, ex, ey, a1, a2, b1, b2⟩ := hin
    have hi' : (i : ℚ) + 1 ≤ 512 := by exact_mod_cast hi
    have hj' : (j : ℚ) + 1 ≤ 512 := by exact_mod_cast hj
    have i0 : (0 : ℚ) ≤ i := by positivity
    have j0 : (0 : ℚ) ≤ j := by positivity
    rw [ex, ey, ofRat_zero, ofInt_512]
    simp only [F64.le, F64.lt, Bool.and_eq_true, decide_eq_true_eq]
    exact ⟨⟨⟨by linarith, by linarith⟩, by linarith⟩, by linarith⟩

theorem add_one_nat (n : Nat) (hn : n + 1 ≤ 2 ^ 53) : F64.add (.fin (n : ℚ)) (F64.ofRat 1) = .fin ((n + 1 : ℕ) : ℚ) := by
  have h1 : F64.ofRat 1 = .fin ((1 : ℤ) : ℚ) := by
    have := F64.ofRat_int (n := 1) (by norm_num); simpa using this
  have := addInt (a := (n : ℤ)) (b := 1) (by rw [abs_of_nonneg (by omega)]; omega)
  rw [h1]
  have e : ((n : ℕ) : ℚ) = (((n : ℤ)) : ℚ) := by push_cast; rfl
  rw [e, this]
  congr 1

/-- The picture holds the counts `c`. -/
def Shows (h : Nat → F64) (c : Nat → Nat → Nat) : Prop := ∀ i j, i < 512 → j < 512 → h (512 * i + j) = .fin (c i j : ℚ)

theorem addEvents_ok (cos sin : F64) (es : List Neutron) (h : Nat → F64) (c : Nat → Nat → Nat) (N : Nat) (hs : Shows h c)
    (hb : ∀ i j, c i j ≤ N) (hN : N + es.length ≤ 2 ^ 53) :
    ∃ h', Gui.addEvents cos sin h es = .ok h' ∧ Shows h' fun i j => c i j + cellCount cos sin i j es := by
  classical
  induction es generalizing h c N with
  | nil => exact ⟨h, rfl, by simpa [cellCount] using hs⟩
  | cons e es ih =>
    simp only [List.length_cons] at hN
    obtain ⟨h1, e1, k1⟩ := addEvent_ok cos sin h e
    obtain ⟨h2, e2, k2⟩ := ih h1 (fun i j => c i j + if InCell cos sin i j e then 1 else 0) (N + 1)
      (by
        intro i j hi hj
        show h1 (512 * i + j) = .fin ((c i j + if InCell cos sin i j e then 1 else 0 : ℕ) : ℚ)
        by_cases hin : InCell cos sin i j e
        · rw [(k1 i j hi hj).1 hin, hs i j hi hj, add_one_nat _ (by have := hb i j; omega), if_pos hin]
        · rw [(k1 i j hi hj).2 hin, hs i j hi hj, if_neg hin, Nat.add_zero])
      (by intro i j; have := hb i j; split_ifs <;> omega) (by omega)
    refine ⟨h2, ?_, ?_⟩
    · simp only [Gui.addEvents, e1, Res.bind]; exact e2
    · intro i j hi hj
      rw [k2 i j hi hj]
      have : (c i j + if InCell cos sin i j e then 1 else 0) + cellCount cos sin i j es =
          c i j + cellCount cos sin i j (e :: es) := by
        unfold cellCount
        rw [List.countP_cons]
        simp only [decide_eq_true_eq]
        generalize (List.countP _ es) = m
        split_ifs <;> omega
      simp only [this]

/-- Incrementing never has undefined behaviour, whatever the events and the angle. -/
theorem addEvents_returns (cos sin : F64) (es : List Neutron) (h : Nat → F64) :
    ∃ h', Gui.addEvents cos sin h es = .ok h' := by
  induction es generalizing h with
  | nil => exact ⟨h, rfl⟩
  | cons e es ih =>
    obtain ⟨h1, e1, -⟩ := addEvent_ok cos sin h e
    obtain ⟨h2, e2⟩ := ih h1
    exact ⟨h2, by simp only [Gui.addEvents, e1, Res.bind]; exact e2⟩

theorem ns_wide (h : Hit) (hb : h.spidertime.toNat < 2 ^ 59) : h.spidertimeNs.toU64? ≠ none := by
  rw [Ne, toU64_none_iff]
  omega

/-- C72 as far as it holds: as long as no dialog for reading was cancelled, a complete stream with at least one hit packet
and fewer than 2^29 gets read, and the new events are one for each cluster with charge of its hits. -/
theorem c72_reads_partial (solve : List GaussRow → F64 × F64) (cos sin : F64) (as : List GuiAction)
    (r : Gui × List GuiOutput) (hr : Gui.init.run solve cos sin as = .ok r) (ha : ∀ a ∈ as, ¬ IsCancelledRead a)
    (cs : List Chunk) (hc : ∀ c ∈ cs, c.WellFormed)
    (hn : 0 < ((chunkPackets cs).filter fun p => IsHitPacket p.2).length)
    (hn' : ((chunkPackets cs).filter fun p => IsHitPacket p.2).length < 2 ^ 29) :
    ∃ g hits, r.1.readFile solve cos sin (.file (streamBytes cs)) = .ok g ∧ g.timer = false ∧
      readTimepix3RawData (streamBytes cs) = .ok hits ∧
      ∃ k : Nat, (∀ l : Int, l ∈ g.alg.labels ↔ 0 ≤ l ∧ l < k) ∧
        List.Forall₂ (fun (l : Nat) e => IsEventOf 1 (members hits g.alg.labels l) e)
          ((List.range k).filter fun l => 1 ≤ (members hits g.alg.labels l).length ∧
            total Hit.tot (members hits g.alg.labels l) ≠ 0) g.events := by
  have hread := c56_read cs hc
  generalize hps : ((chunkPackets cs).filter fun p => IsHitPacket p.2) = ps at hread hn hn'
  have hb := altRun_bounds ps ⟨0#64, 0#64⟩
  have hd := altRun_decoded ps ⟨0#64, 0#64⟩
  have hlen := altRun_length ps ⟨0#64, 0#64⟩
  generalize altRun ⟨0#64, 0#64⟩ ps = hits at hread hb hd hlen
  have hne : hits ≠ [] := by rintro rfl; simp at hlen; omega
  have ht : r.1.timer = false := run_timer rfl ha hr
  obtain ⟨hp, hm⟩ := run_alg hr
  obtain ⟨o', hf⟩ : ∃ o', r.1.alg.legacyFit hits = .ok o' := by
    rcases fitWith_ok (by decide : 0 < legacyClusters) r.1.alg hits with h | ⟨-, h, hm, hno⟩
    · exact h
    · exact absurd hno (ns_wide h (hb (by decide) (by simpa using hn') h hm).1)
  have hsize : hits.length ≤ 2 ^ 31 := by rw [hlen]; omega
  obtain ⟨k, events, hk, he, hev⟩ := c71_events_partial solve r.1.alg o' hits hf hm hd hsize hne
  obtain ⟨histo, hh⟩ := addEvents_returns cos sin events r.1.histo
  refine ⟨⟨false, o', events, histo⟩, hits, ?_, rfl, hread, k, hk, ?_⟩
  · simp only [Gui.readFile, ht, Bool.false_eq_true, if_false, bind, Res.bind, hread, hf, he, hh]
  · rw [hp] at hev
    exact hev

/-- C72 does not hold for files without hits: the end of an empty vector is read. -/
theorem c72_false_no_hits (solve : List GaussRow → F64 × F64) (cos sin : F64) (g : Gui) (hg : g.timer = false)
    (cs : List Chunk) (hc : ∀ c ∈ cs, c.WellFormed) (hn : ∀ p ∈ chunkPackets cs, ¬ IsHitPacket p.2) :
    g.readFile solve cos sin (.file (streamBytes cs)) = .ub .oobRead := by
  have hread := c56_read cs hc
  rw [List.filter_eq_nil_iff.mpr (by simpa using hn)] at hread
  obtain ⟨o', hf, he⟩ := c71_false_empty solve g.alg
  simp only [Gui.readFile, hg, Bool.false_eq_true, if_false, bind, Res.bind, hread, altRun, hf, he]

/-- C72: an empty file is such a file. -/
theorem c72_false_empty_file (solve : List GaussRow → F64 × F64) (cos sin : F64) :
    Gui.init.readFile solve cos sin (.file []) = .ub .oobRead :=
  c72_false_no_hits solve cos sin Gui.init rfl [] (by simp) (by simp [chunkPackets])

/-- C72: choosing a file for the events before any file was read throws out of the slot, after the picture was written. -/
theorem c72_false_save (solve : List GaussRow → F64 × F64) (cos sin : F64) (p : SaveChoice) (hp : p ≠ .unwritable)
    (as : List GuiAction) :
    Gui.init.run solve cos sin (.save p .file :: as) = .throws "No events to save" := by
  cases p <;> first | exact absurd rfl hp | rfl

/-! ## C73: the picture -/

/-- C73: adding events to the picture never has undefined behaviour, for any events, angle and picture. -/
theorem c73_safe (cos sin : F64) (es : List Neutron) (h : Nat → F64) : ∃ h', Gui.addEvents cos sin h es = .ok h' :=
  addEvents_returns cos sin es h

theorem readFile_file {solve : List GaussRow → F64 × F64} {cos sin : F64} {g g' : Gui} {content : Bytes}
    (hg : g.timer = false) (h : g.readFile solve cos sin (.file content) = .ok g') :
    Gui.addEvents cos sin g.histo g'.events = .ok g'.histo := by
  simp only [Gui.readFile, hg, Bool.false_eq_true, if_false, bind, Res.bind] at h
  split at h <;> try simp at h
  split at h <;> try simp at h
  split at h <;> try simp at h
  split at h <;> try simp at h
  rename_i hh
  subst h
  exact hh

theorem cellCount_append (cos sin : F64) (i j : Nat) (es fs : List Neutron) :
    cellCount cos sin i j (es ++ fs) = cellCount cos sin i j es + cellCount cos sin i j fs := by
  unfold cellCount; exact List.countP_append

theorem cellCount_le (cos sin : F64) (i j : Nat) (es : List Neutron) : cellCount cos sin i j es ≤ es.length := by
  unfold cellCount; exact List.countP_le_length

/-- The events of one action. -/
def actionEvents (g : Gui) (a : GuiAction) (g' : Gui) : List Neutron :=
  match a with
  | .read (.file _) => if g.timer then [] else g'.events
  | _ => []

theorem eventsRead_cons {solve : List GaussRow → F64 × F64} {cos sin : F64} {g : Gui} {a : GuiAction}
    {as : List GuiAction} {r : Gui × List GuiOutput} (h : g.act solve cos sin a = .ok r) :
    eventsRead solve cos sin g (a :: as) = actionEvents g a r.1 ++ eventsRead solve cos sin r.1 as := by
  rw [eventsRead, h]
  rfl

theorem act_histo {solve : List GaussRow → F64 × F64} {cos sin : F64} {g : Gui} {a : GuiAction} {r : Gui × List GuiOutput}
    (h : g.act solve cos sin a = .ok r) : Gui.addEvents cos sin g.histo (actionEvents g a r.1) = .ok r.1.histo := by
  cases a with
  | read c =>
    simp only [Gui.act] at h
    cases hr : g.readFile solve cos sin c with
    | throws e => rw [hr] at h; simp [Res.bind] at h
    | ub u => rw [hr] at h; simp [Res.bind] at h
    | ok g' =>
      rw [hr] at h
      simp only [Res.bind, Res.ok.injEq] at h
      subst h
      cases ht : g.timer with
      | true =>
        have : g' = g := by
          unfold Gui.readFile at hr
          rw [if_pos ht] at hr
          simp only [Res.ok.injEq] at hr
          exact hr.symm
        subst this
        cases c <;> simp [actionEvents, ht, Gui.addEvents]
      | false =>
        cases c with
        | cancelled =>
          simp only [Gui.readFile, ht, Bool.false_eq_true, if_false, Res.ok.injEq] at hr
          subst hr
          rfl
        | unreadable => simp [Gui.readFile, ht] at hr
        | file content =>
          simp only [actionEvents, ht, Bool.false_eq_true, if_false]
          exact readFile_file ht hr
  | save p e =>
    simp only [Gui.act] at h
    cases hs : g.save p e with
    | ok out => rw [hs] at h; simp only [Res.bind, Res.ok.injEq] at h; subst h; rfl
    | throws e => rw [hs] at h; simp [Res.bind] at h
    | ub u => rw [hs] at h; simp [Res.bind] at h
  | range => simp only [Gui.act, Res.ok.injEq] at h; subst h; rfl

theorem init_shows : Shows Gui.init.histo fun _ _ => 0 := by
  intro i j _ _
  have e : ((0 : ℕ) : ℚ) = 0 := Nat.cast_zero
  simp only [e, Gui.init, ofRat_zero]

theorem run_shows {solve : List GaussRow → F64 × F64} {cos sin : F64} (as : List GuiAction) (g : Gui)
    (r : Gui × List GuiOutput) (h : g.run solve cos sin as = .ok r) (c : Nat → Nat → Nat) (N : Nat) (hs : Shows g.histo c)
    (hb : ∀ i j, c i j ≤ N) (hN : N + (eventsRead solve cos sin g as).length ≤ 2 ^ 53) :
    Shows r.1.histo fun i j => c i j + cellCount cos sin i j (eventsRead solve cos sin g as) := by
  induction as generalizing g r c N with
  | nil =>
    simp only [Gui.run, Res.ok.injEq] at h
    subst h
    simpa [eventsRead, cellCount] using hs
  | cons a as ih =>
    obtain ⟨r1, r2, h1, h2, rfl⟩ := run_cons h
    rw [eventsRead_cons h1, List.length_append] at hN
    obtain ⟨h', e', s'⟩ := addEvents_ok cos sin (actionEvents g a r1.1) g.histo c N hs hb (by omega)
    rw [act_histo h1] at e'
    simp only [Res.ok.injEq] at e'
    subst e'
    have := ih r1.1 r2 h2 _ (N + (actionEvents g a r1.1).length) s'
      (fun i j => by
        have h1 := hb i j
        have h2 := cellCount_le cos sin i j (actionEvents g a r1.1)
        show c i j + _ ≤ _
        omega) (by omega)
    intro i j hi hj
    have t := this i j hi hj
    have e : c i j + cellCount cos sin i j (actionEvents g a r1.1) + cellCount cos sin i j (eventsRead solve cos sin r1.1 as) =
        c i j + cellCount cos sin i j (eventsRead solve cos sin g (a :: as)) := by
      rw [eventsRead_cons h1, cellCount_append, Nat.add_assoc]
    simp only [e] at t
    exact t

/-- C73: whatever the user did, if there were at most 2^53 events, every cell of the picture holds the number of events,
of all files read since the start, whose turned position lies in it. -/
theorem c73_counts (solve : List GaussRow → F64 × F64) (cos sin : F64) (as : List GuiAction) (r : Gui × List GuiOutput)
    (h : Gui.init.run solve cos sin as = .ok r) (hN : (eventsRead solve cos sin Gui.init as).length ≤ 2 ^ 53)
    (i j : Nat) (hi : i < 512) (hj : j < 512) :
    r.1.histo (512 * i + j) = .fin (cellCount cos sin i j (eventsRead solve cos sin Gui.init as) : ℚ) := by
  have := run_shows as Gui.init r h (fun _ _ => 0) 0
    init_shows (fun _ _ => le_refl 0) (by rw [Nat.zero_add]; exact hN) i j hi hj
  simp only [Nat.zero_add] at this
  exact this

/-- C73: the order in which the threads add the events does not matter. -/
theorem c73_schedule (cos sin : F64) (es fs : List Neutron) (hp : es.Perm fs) (h he hf : Nat → F64) (c : Nat → Nat → Nat)
    (N : Nat) (hs : Shows h c) (hb : ∀ i j, c i j ≤ N) (hN : N + es.length ≤ 2 ^ 53)
    (h1 : Gui.addEvents cos sin h es = .ok he) (h2 : Gui.addEvents cos sin h fs = .ok hf) (i j : Nat) (hi : i < 512)
    (hj : j < 512) : he (512 * i + j) = hf (512 * i + j) := by
  obtain ⟨a, ea, sa⟩ := addEvents_ok cos sin es h c N hs hb hN
  obtain ⟨b, eb, sb⟩ := addEvents_ok cos sin fs h c N hs hb (by rw [← hp.length_eq]; exact hN)
  rw [h1] at ea; rw [h2] at eb
  simp only [Res.ok.injEq] at ea eb
  subst ea; subst eb
  rw [sa i j hi hj, sb i j hi hj]
  have : cellCount cos sin i j es = cellCount cos sin i j fs := by unfold cellCount; exact hp.countP_eq _
  simp only [this]

/-- C73: a saved picture is the picture with its axes swapped. -/
theorem c73_saved (g : Gui) (hg : g.timer = false) (out : List GuiOutput) (h : g.save .file .cancelled = .ok out) :
    ∃ v, out = [.picture v] ∧ ∀ i j, i < 512 → j < 512 → v (512 * i + j) = g.histo (512 * j + i) := by
  simp only [Gui.save, hg, Bool.false_eq_true, if_false, bind, Res.bind, Res.ok.injEq, List.append_nil] at h
  refine ⟨_, h.symm, fun i j hi hj => ?_⟩
  have e1 : (512 * i + j) % 512 = j := by omega
  have e2 : (512 * i + j) / 512 = i := by omega
  simp only [e1, e2]

/-- C73: after one file was read, the saved events are the ones that the picture shows. -/
theorem c73_single_partial (solve : List GaussRow → F64 × F64) (cos sin : F64) (content : Bytes) (r : Gui × List GuiOutput)
    (h : Gui.init.run solve cos sin [.read (.file content), .save .file .file] = .ok r)
    (hN : r.1.events.length ≤ 2 ^ 53) :
    ∃ v, r.2 = [.picture v, .events r.1.events] ∧
      ∀ i j, i < 512 → j < 512 → v (512 * j + i) = .fin (cellCount cos sin i j r.1.events : ℚ) := by
  obtain ⟨r1, r2, h1, h2, rfl⟩ := run_cons h
  obtain ⟨r3, r4, h3, h4, rfl⟩ := run_cons h2
  simp only [Gui.run, Res.ok.injEq] at h4
  subst h4
  have ht : r1.1.timer = false := act_timer (a := .read (.file content)) rfl (fun h => h) h1
  have hh := act_histo h1
  have he : actionEvents Gui.init (.read (.file content)) r1.1 = r1.1.events := rfl
  rw [he] at hh
  have hr1 : r1.2 = [] := by
    simp only [Gui.act] at h1
    cases hr : Gui.init.readFile solve cos sin (.file content) with
    | throws e => rw [hr] at h1; simp [Res.bind] at h1
    | ub u => rw [hr] at h1; simp [Res.bind] at h1
    | ok g' => rw [hr] at h1; simp only [Res.bind, Res.ok.injEq] at h1; subst h1; rfl
  simp only [Gui.act, Gui.save, ht, Bool.false_eq_true, if_false, bind, Res.bind] at h3
  by_cases hev : r1.1.events = []
  · simp [hev] at h3
  · rw [if_neg hev] at h3
    simp only [Res.ok.injEq] at h3
    subst h3
    refine ⟨fun k => r1.1.histo (512 * (k % 512) + k / 512), by rw [hr1]; rfl, fun i j hi hj => ?_⟩
    have e1 : (512 * j + i) % 512 = i := by omega
    have e2 : (512 * j + i) / 512 = j := by omega
    simp only [e1, e2]
    obtain ⟨h', e', s'⟩ := addEvents_ok cos sin r1.1.events Gui.init.histo (fun _ _ => 0) 0
      init_shows (fun _ _ => le_refl 0) (by rw [Nat.zero_add]; exact hN)
    rw [hh] at e'
    simp only [Res.ok.injEq] at e'
    subst e'
    have t := s' i j hi hj
    simp only [Nat.zero_add] at t
    exact t

/-- The doubles nearest to the cosine and the sine of -1 degree. -/
def rotCos : F64 := .fin (4502913707333573 / 4503599627370496)
def rotSin : F64 := .fin (-2515156836085391 / 144115188075855872)

/-- A file with one chunk and one hit packet. -/
def exGuiFile (packet : U64) : List Chunk := [⟨0x0008000033585054#64, [packet]⟩]

/-- The solver of the method that the program does not use. -/
def exSolve : List GaussRow → F64 × F64 := fun _ => (.fin 0, .fin 0)

/-- C73 is false for several files: after the same file was read twice, the events, and so the file saved from them, hold
one event, and the picture shows two. -/
theorem c73_false : ∃ r, Gui.init.run exSolve rotCos rotSin
      [.read (.file (streamBytes (exGuiFile 0xB123400000110000#64))),
        .read (.file (streamBytes (exGuiFile 0xB123400000110000#64)))] = .ok r ∧
    r.1.events.length = 1 ∧ r.1.histo (512 * 279 + 19) = .fin 2 := by
  have e : (Gui.init.run exSolve rotCos rotSin
      [.read (.file (streamBytes (exGuiFile 0xB123400000110000#64))),
        .read (.file (streamBytes (exGuiFile 0xB123400000110000#64)))]).bind
      (fun r => .ok (r.1.events.length, r.1.histo (512 * 279 + 19))) = .ok (1, .fin 2) := by decide +kernel
  cases h : Gui.init.run exSolve rotCos rotSin
      [.read (.file (streamBytes (exGuiFile 0xB123400000110000#64))),
        .read (.file (streamBytes (exGuiFile 0xB123400000110000#64)))] with
  | ok r => rw [h] at e; simp only [Res.bind, Res.ok.injEq, Prod.mk.injEq] at e; exact ⟨r, rfl, e⟩
  | throws m => rw [h] at e; simp [Res.bind] at e
  | ub u => rw [h] at e; simp [Res.bind] at e

/-- C73 is false even for one file: the event of a hit near the edge is turned out of the picture. -/
theorem c73_false_turned : ∃ g, Gui.init.readFile exSolve rotCos rotSin
      (.file (streamBytes (exGuiFile 0xB000000000110000#64))) = .ok g ∧ g.events.length = 1 ∧
    ∀ i j, i < 512 → j < 512 → g.histo (512 * i + j) = .fin 0 := by
  have e : (Gui.init.readFile exSolve rotCos rotSin (.file (streamBytes (exGuiFile 0xB000000000110000#64)))).bind
      (fun g => .ok (g.events.length, g.events.map fun e => F64.lt (Gui.turned rotCos rotSin e).2 (.fin 0))) =
      .ok (1, [true]) := by decide +kernel
  cases h : Gui.init.readFile exSolve rotCos rotSin (.file (streamBytes (exGuiFile 0xB000000000110000#64))) with
  | throws m => rw [h] at e; simp [Res.bind] at e
  | ub u => rw [h] at e; simp [Res.bind] at e
  | ok g =>
    rw [h] at e
    simp only [Res.bind, Res.ok.injEq, Prod.mk.injEq] at e
    refine ⟨g, rfl, e.1, fun i j hi hj => ?_⟩
    obtain ⟨ev, hev⟩ := List.length_eq_one_iff.mp e.1
    have ht := e.2
    rw [hev] at ht
    simp only [List.map_cons, List.map_nil, List.cons.injEq, and_true] at ht
    have ha := readFile_file rfl h
    rw [hev] at ha
    obtain ⟨h', e', k'⟩ := addEvent_ok rotCos rotSin Gui.init.histo ev
    simp only [Gui.addEvents, e', Res.bind, Res.ok.injEq] at ha
    subst ha
    have hz := init_shows i j hi hj
    have e0 : ((0 : ℕ) : ℚ) = 0 := Nat.cast_zero
    simp only [e0] at hz
    rw [(k' i j hi hj).2 ?_, hz]
    rintro ⟨x, y, -, ey, -, -, hy, -⟩
    unfold Gui.turned at ht
    simp only at ht
    rw [ey] at ht
    simp only [F64.lt, decide_eq_true_eq] at ht
    have : (0 : ℚ) ≤ j := by positivity
    linarith

/-! Files and actions meeting the hypotheses of the theorems above. -/

example : (∀ c ∈ exGuiFile 0xB123400000110000#64, c.WellFormed) ∧
    ((chunkPackets (exGuiFile 0xB123400000110000#64)).filter fun p => IsHitPacket p.2).length = 1 := by decide

example : (∀ c ∈ exGuiFile 0x4400000000010000#64, c.WellFormed) ∧
    ∀ p ∈ chunkPackets (exGuiFile 0x4400000000010000#64), ¬ IsHitPacket p.2 := by decide

example : ∃ r, Gui.init.run exSolve rotCos rotSin [.save .file .cancelled, .range,
      .read (.file (streamBytes (exGuiFile 0xB123400000110000#64))), .save .file .file] = .ok r ∧
    r.2.length = 3 ∧ r.1.events.length = 1 := by
  have e : (Gui.init.run exSolve rotCos rotSin [.save .file .cancelled, .range,
      .read (.file (streamBytes (exGuiFile 0xB123400000110000#64))), .save .file .file]).bind
      (fun r => .ok (r.2.length, r.1.events.length)) = .ok (3, 1) := by decide +kernel
  cases h : Gui.init.run exSolve rotCos rotSin [.save .file .cancelled, .range,
      .read (.file (streamBytes (exGuiFile 0xB123400000110000#64))), .save .file .file] with
  | ok r => rw [h] at e; simp only [Res.bind, Res.ok.injEq, Prod.mk.injEq] at e; exact ⟨r, rfl, e⟩
  | throws m => rw [h] at e; simp [Res.bind] at e
  | ub u => rw [h] at e; simp [Res.bind] at e

end Verif.Props
