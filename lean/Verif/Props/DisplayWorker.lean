import Mathlib.Algebra.BigOperators.Group.List.Basic
import Mathlib.Algebra.Order.Group.Unbundled.Int
import Mathlib.Data.List.Perm.Basic
import Verif.Spec.DisplayWorker
import Verif.Lemmas.F64

/-! # Clustering in the display program (C67, C68) -/

namespace Verif.Props

open Verif Verif.Spec

theorem takes_iff (c : ShownCluster) (g : List DisplayHit) (hu : c.inUse = true) (hs : Summarises c g) (h : DisplayHit) :
    c.takes h = true ↔ Joins g h := by
  unfold ShownCluster.takes Joins
  simp only [hu, Bool.true_and, Bool.and_eq_true, decide_eq_true_eq, abs_lt]
  obtain ⟨⟨a1, m1, e1⟩, b1⟩ := hs.minx
  obtain ⟨⟨a2, m2, e2⟩, b2⟩ := hs.maxx
  obtain ⟨⟨a3, m3, e3⟩, b3⟩ := hs.miny
  obtain ⟨⟨a4, m4, e4⟩, b4⟩ := hs.maxy
  have hf := hs.first
  constructor
  · rintro ⟨⟨⟨⟨h1, h2⟩, h3⟩, h4⟩, h5⟩
    refine ⟨?_, ⟨a2, m2, by omega⟩, ⟨a1, m1, by omega⟩, ⟨a4, m4, by omega⟩, ⟨a3, m3, by omega⟩⟩
    cases hg : g.head? with
    | none => rw [hg] at hf; simp at hf
    | some f =>
      rw [hg] at hf
      have : f.spdr = c.firstspdr := by simpa using hf
      exact ⟨f, rfl, by omega, by omega⟩
  · rintro ⟨⟨f, hg, h1, h2⟩, ⟨x1, n1, k1⟩, ⟨x2, n2, k2⟩, ⟨x3, n3, k3⟩, ⟨x4, n4, k4⟩⟩
    rw [hg] at hf
    have : f.spdr = c.firstspdr := by simpa using hf
    have := b1 x2 n2
    have := b2 x1 n1
    have := b3 x4 n4
    have := b4 x3 n3
    refine ⟨⟨⟨⟨⟨?_, ?_⟩, ?_⟩, ?_⟩, ?_⟩, ?_⟩ <;> omega

theorem asInt_ok {n m : Int} (h : asInt n = .ok m) : m = n := by
  unfold asInt at h
  split_ifs at h
  · injection h with h; exact h.symm

theorem bind_ok {α β : Type} {r : Res α} {f : α → Res β} {b : β} (h : r.bind f = .ok b) : ∃ a, r = .ok a ∧ f a = .ok b := by
  cases r with
  | ok a => exact ⟨a, rfl, h⟩
  | throws m => cases h
  | ub u => cases h

theorem single_summary (h : DisplayHit) (c : ShownCluster) (hc : ShownCluster.single h = .ok c) :
    c.inUse = true ∧ Summarises c [h] := by
  unfold ShownCluster.single at hc
  obtain ⟨rx, h1, hc⟩ := bind_ok hc
  obtain ⟨ry, h2, hc⟩ := bind_ok hc
  injection hc with hc
  have e1 := asInt_ok h1
  have e2 := asInt_ok h2
  subst hc
  refine ⟨rfl, ⟨by simp, by simp, by simp, ?_, ?_, by simp, by simp, by simp, by simp⟩⟩
  · simp [e1, mul_comm]
  · simp [e2, mul_comm]

theorem add_summary (c : ShownCluster) (g : List DisplayHit) (h : DisplayHit) (c' : ShownCluster) (hs : Summarises c g)
    (hc : c.add h = .ok c') : c'.inUse = c.inUse ∧ Summarises c' (g ++ [h]) := by
  unfold ShownCluster.add at hc
  obtain ⟨pix, h1, hc⟩ := bind_ok hc
  obtain ⟨px, h2, hc⟩ := bind_ok hc
  obtain ⟨rx, h3, hc⟩ := bind_ok hc
  obtain ⟨py, h4, hc⟩ := bind_ok hc
  obtain ⟨ry, h5, hc⟩ := bind_ok hc
  obtain ⟨tot, h6, hc⟩ := bind_ok hc
  injection hc with hc
  have e1 := asInt_ok h1
  have e2 := asInt_ok h2
  have e3 := asInt_ok h3
  have e4 := asInt_ok h4
  have e5 := asInt_ok h5
  have e6 := asInt_ok h6
  subst hc
  obtain ⟨s1, s2, s3, s4, s5, s6, s7, s8, s9⟩ := hs
  have hne : g ≠ [] := by rintro rfl; simp at s1
  have low : ∀ (f : DisplayHit → Int) (m : Int), ((∃ a ∈ g, f a = m) ∧ ∀ a ∈ g, m ≤ f a) →
      (∃ a ∈ g ++ [h], f a = if f h < m then f h else m) ∧ ∀ a ∈ g ++ [h], (if f h < m then f h else m) ≤ f a := by
    rintro f m ⟨⟨a, ha, e⟩, b⟩
    by_cases hlt : f h < m
    · simp only [hlt, if_true]
      refine ⟨⟨h, by simp, rfl⟩, fun a ha => ?_⟩
      rcases List.mem_append.mp ha with ha | ha
      · have := b a ha; omega
      · rw [List.mem_singleton.mp ha]
    · simp only [hlt, if_false]
      refine ⟨⟨a, by simp [ha], e⟩, fun a ha => ?_⟩
      rcases List.mem_append.mp ha with ha | ha
      · exact b a ha
      · rw [List.mem_singleton.mp ha]; omega
  have high : ∀ (f : DisplayHit → Int) (m n : Int), ((∃ a ∈ g, f a = n) ∧ ∀ a ∈ g, n ≤ f a) →
      ((∃ a ∈ g, f a = m) ∧ ∀ a ∈ g, f a ≤ m) →
      (∃ a ∈ g ++ [h], f a = if f h < n then m else if m < f h then f h else m) ∧
        ∀ a ∈ g ++ [h], f a ≤ (if f h < n then m else if m < f h then f h else m) := by
    rintro f m n ⟨-, b'⟩ ⟨⟨a, ha, e⟩, b⟩
    have hnm := b' a ha
    by_cases h1 : f h < n
    · simp only [h1, if_true]
      refine ⟨⟨a, by simp [ha], e⟩, fun x hx => ?_⟩
      rcases List.mem_append.mp hx with hx | hx
      · exact b x hx
      · rw [List.mem_singleton.mp hx]; omega
    · by_cases h2 : m < f h
      · simp only [h1, h2, if_true, if_false]
        refine ⟨⟨h, by simp, rfl⟩, fun x hx => ?_⟩
        rcases List.mem_append.mp hx with hx | hx
        · have := b x hx; omega
        · rw [List.mem_singleton.mp hx]
      · simp only [h1, h2, if_false]
        refine ⟨⟨a, by simp [ha], e⟩, fun x hx => ?_⟩
        rcases List.mem_append.mp hx with hx | hx
        · exact b x hx
        · rw [List.mem_singleton.mp hx]; omega
  refine ⟨rfl, ⟨?_, ?_, ?_, ?_, ?_, ?_, ?_, ?_, ?_⟩⟩
  · rw [List.head?_append_of_ne_nil _ hne]; exact s1
  · simp [e1, s2]
  · simp [e6, s3]
  · simp [e3, e2, s4]
  · simp [e5, e4, s5]
  · exact low (·.x) _ s6
  · exact high (·.x) _ _ s6 s7
  · exact low (·.y) _ s8
  · exact high (·.y) _ _ s8 s9

/-- The state of the program holds these open and closed clusters. -/
structure HoldsClusters (cos sin : F64) (s : HitWorker) (os cl : List (List DisplayHit)) : Prop where
  len : os.length ≤ 127
  cidx : s.cindex < 128
  pidx : s.pindex = (s.cindex + os.length) % 128
  used : ∀ k (hk : k < os.length), (s.slots ((s.cindex + k) % 128)).inUse = true ∧
    Summarises (s.slots ((s.cindex + k) % 128)) os[k]
  free : ∀ i, i < 128 → (∀ k, k < os.length → i ≠ (s.cindex + k) % 128) → (s.slots i).inUse = false
  popped : List.Forall₂ Summarises s.popped cl
  total : s.total = cl.length
  accepted : s.accepted = cl.countP fun g => 10 < g.length
  shown : ∃ ls, List.Forall₂ (fun c l => if 10 < c.totalpix then c.place cos sin = .ok l else l = []) s.popped ls ∧
    s.shown = ls.flatten

theorem holdsClusters_init (cos sin : F64) : HoldsClusters cos sin HitWorker.init [] [] := by
  refine ⟨by simp, by simp [HitWorker.init], by simp [HitWorker.init], by simp, fun _ _ _ => rfl, List.Forall₂.nil, rfl,
    rfl, [], List.Forall₂.nil, rfl⟩

/-- A hit that finds a cluster. -/
theorem step_some (cos sin : F64) (s : HitWorker) (os cl : List (List DisplayHit)) (hh : HoldsClusters cos sin s os cl)
    (h : DisplayHit) (i : Nat) (hi : (List.range 128).find? (fun i => (s.slots i).takes h) = some i) :
    ∃ k, ∃ hk : k < os.length, i = (s.cindex + k) % 128 ∧ Joins os[k] h ∧
      ∀ c, (s.slots i).add h = .ok c → s.step cos sin h = .ok { s with slots := Function.update s.slots i c } ∧
        HoldsClusters cos sin { s with slots := Function.update s.slots i c } (os.set k (os[k] ++ [h])) cl := by
  have h1 := List.find?_some hi
  have h2 : i < 128 := List.mem_range.mp (List.mem_of_find?_eq_some hi)
  have hu : (s.slots i).inUse = true := by
    unfold ShownCluster.takes at h1
    simp only [Bool.and_eq_true] at h1
    exact h1.1.1.1.1.1
  obtain ⟨k, hk, rfl⟩ : ∃ k, k < os.length ∧ i = (s.cindex + k) % 128 := by
    by_contra hcon
    have := hh.free i h2 (fun k hk he => hcon ⟨k, hk, he⟩)
    rw [hu] at this
    cases this
  obtain ⟨u1, u2⟩ := hh.used k hk
  refine ⟨k, hk, rfl, (takes_iff _ _ u1 u2 h).mp h1, fun c hc => ⟨?_, ?_⟩⟩
  · unfold HitWorker.step
    rw [hi]
    simp only
    rw [hc]
    rfl
  · obtain ⟨a1, a2⟩ := add_summary _ _ _ _ u2 hc
    have hl := hh.len
    have hcx := hh.cidx
    refine ⟨by simpa using hl, hcx, by simpa using hh.pidx, ?_, ?_, hh.popped, hh.total, hh.accepted, hh.shown⟩
    · intro j hj
      rw [List.length_set] at hj
      by_cases hjk : j = k
      · subst hjk
        simp only [Function.update_self, List.getElem_set_self]
        exact ⟨by rw [a1, u1], a2⟩
      · have hne : (s.cindex + j) % 128 ≠ (s.cindex + k) % 128 := by omega
        simp only
        rw [Function.update_of_ne hne, List.getElem_set_ne (fun he => hjk he.symm)]
        exact hh.used j hj
    · intro i hi' hf
      rw [List.length_set] at hf
      have hne := hf k hk
      simp only
      rw [Function.update_of_ne hne]
      exact hh.free i hi' hf

theorem none_joins (cos sin : F64) (s : HitWorker) (os cl : List (List DisplayHit)) (hh : HoldsClusters cos sin s os cl)
    (h : DisplayHit) : (List.range 128).find? (fun i => (s.slots i).takes h) = none ↔ ∀ g ∈ os, ¬ Joins g h := by
  rw [List.find?_eq_none]
  constructor
  · intro hn g hg hj
    obtain ⟨k, hk, rfl⟩ := List.mem_iff_getElem.mp hg
    obtain ⟨u1, u2⟩ := hh.used k hk
    exact hn ((s.cindex + k) % 128) (List.mem_range.mpr (by omega)) ((takes_iff _ _ u1 u2 h).mpr hj)
  · intro hn i hi ht
    have h2 := List.mem_range.mp hi
    have hu : (s.slots i).inUse = true := by
      unfold ShownCluster.takes at ht
      simp only [Bool.and_eq_true] at ht
      exact ht.1.1.1.1.1
    by_cases hex : ∃ k, k < os.length ∧ i = (s.cindex + k) % 128
    · obtain ⟨k, hk, rfl⟩ := hex
      obtain ⟨u1, u2⟩ := hh.used k hk
      exact hn _ (List.getElem_mem hk) ((takes_iff _ _ u1 u2 h).mp ht)
    · have := hh.free i h2 (fun k hk he => hex ⟨k, hk, he⟩)
      rw [hu] at this
      cases this

/-- A hit that opens a cluster while there is room. -/
theorem step_open (cos sin : F64) (s : HitWorker) (os cl : List (List DisplayHit)) (hh : HoldsClusters cos sin s os cl)
    (h : DisplayHit) (hn : ∀ g ∈ os, ¬ Joins g h) (hl : os.length < 127) (c : ShownCluster)
    (hc : ShownCluster.single h = .ok c) :
    ∃ s', s.step cos sin h = .ok s' ∧ HoldsClusters cos sin s' (os ++ [[h]]) cl := by
  obtain ⟨c1, c2⟩ := single_summary h c hc
  have hcx := hh.cidx
  have hp := hh.pidx
  refine ⟨{ s with slots := Function.update s.slots s.pindex c, pindex := (s.pindex + 1) % 128 }, ?_, ?_⟩
  · unfold HitWorker.step
    rw [(none_joins cos sin s os cl hh h).mpr hn]
    simp only
    rw [if_neg (by omega), hc]
    rfl
  · refine ⟨by simp; omega, hcx, ?_, ?_, ?_, hh.popped, hh.total, hh.accepted, hh.shown⟩
    · simp only [List.length_append, List.length_cons, List.length_nil]; omega
    · intro k hk
      simp only [List.length_append, List.length_cons, List.length_nil] at hk
      by_cases hk' : k = os.length
      · subst hk'
        simp only
        rw [← hp, Function.update_self]
        simpa using ⟨c1, c2⟩
      · have hlt : k < os.length := by omega
        have hne : (s.cindex + k) % 128 ≠ s.pindex := by omega
        simp only
        rw [Function.update_of_ne hne, List.getElem_append_left hlt]
        exact hh.used k hlt
    · intro i hi hf
      simp only [List.length_append, List.length_cons, List.length_nil] at hf
      have hne : i ≠ s.pindex := by rw [hp]; exact hf os.length (by omega)
      simp only
      rw [Function.update_of_ne hne]
      exact hh.free i hi fun k hk => hf k (by omega)

/-- A hit that opens a cluster while there is none. -/
theorem step_recycle (cos sin : F64) (s : HitWorker) (g : List DisplayHit) (os cl : List (List DisplayHit))
    (hh : HoldsClusters cos sin s (g :: os) cl) (h : DisplayHit) (hn : ∀ g' ∈ g :: os, ¬ Joins g' h) (hl : (g :: os).length = 127)
    (c : ShownCluster) (hc : ShownCluster.single h = .ok c) (l : List (Int × Int))
    (hpl : if 10 < (s.slots s.cindex).totalpix then (s.slots s.cindex).place cos sin = .ok l else l = []) :
    ∃ s', s.step cos sin h = .ok s' ∧ HoldsClusters cos sin s' (os ++ [[h]]) (cl ++ [g]) := by
  obtain ⟨c1, c2⟩ := single_summary h c hc
  have hcx := hh.cidx
  have hp := hh.pidx
  rw [List.length_cons] at hl
  rw [List.length_cons] at hp
  have hu0 := hh.used 0 (by simp)
  rw [Nat.add_zero, Nat.mod_eq_of_lt hcx] at hu0
  have hg : Summarises (s.slots s.cindex) g := hu0.2
  have hpix := hg.pix
  have hpl' : (if 10 < (s.slots s.cindex).totalpix then (s.slots s.cindex).place cos sin else .ok []) = .ok l := by
    split_ifs at hpl ⊢ with hx
    · exact hpl
    · rw [hpl]
  refine ⟨{ slots := Function.update (Function.update s.slots s.cindex { s.slots s.cindex with inUse := false }) s.pindex c
            pindex := (s.pindex + 1) % 128, cindex := (s.cindex + 1) % 128
            total := s.total + 1, accepted := s.accepted + if 10 < (s.slots s.cindex).totalpix then 1 else 0
            shown := s.shown ++ l, popped := s.popped ++ [s.slots s.cindex] }, ?_, ?_⟩
  · unfold HitWorker.step
    rw [(none_joins cos sin s _ cl hh h).mpr hn]
    simp only
    rw [if_pos (by omega), hpl', hc]
    rfl
  · refine ⟨by simp; omega, ?_, ?_, ?_, ?_, ?_, ?_, ?_, ?_⟩
    · simp only; omega
    · simp only [List.length_append, List.length_cons, List.length_nil]; omega
    · intro k hk
      simp only [List.length_append, List.length_cons, List.length_nil] at hk
      by_cases hk' : k = os.length
      · subst hk'
        have hpp : ((s.cindex + 1) % 128 + os.length) % 128 = s.pindex := by omega
        simp only
        rw [hpp, Function.update_self]
        simpa using ⟨c1, c2⟩
      · have hlt : k < os.length := by omega
        have hq : ((s.cindex + 1) % 128 + k) % 128 = (s.cindex + (k + 1)) % 128 := by omega
        have hne : (s.cindex + (k + 1)) % 128 ≠ s.pindex := by omega
        have hne2 : (s.cindex + (k + 1)) % 128 ≠ s.cindex := by omega
        simp only
        rw [hq, Function.update_of_ne hne, Function.update_of_ne hne2, List.getElem_append_left hlt]
        exact hh.used (k + 1) (by simp; omega)
    · intro i hi hf
      simp only [List.length_append, List.length_cons, List.length_nil] at hf
      have hne : i ≠ s.pindex := by
        have := hf os.length (by omega)
        omega
      simp only
      rw [Function.update_of_ne hne]
      by_cases hic : i = s.cindex
      · rw [hic, Function.update_self]
      · rw [Function.update_of_ne hic]
        apply hh.free i hi
        intro k hk
        rw [List.length_cons] at hk
        cases k with
        | zero => omega
        | succ k =>
          have := hf k (by omega)
          omega
    · exact List.rel_append hh.popped (List.Forall₂.cons hg List.Forall₂.nil)
    · simp [hh.total]
    · simp only [List.countP_append, List.countP_singleton, hh.accepted, hpix]
      simp
    · obtain ⟨ls, e1, e2⟩ := hh.shown
      refine ⟨ls ++ [l], List.rel_append e1 (List.Forall₂.cons hpl List.Forall₂.nil), ?_⟩
      simp [e2]

/-- One hit does one step of the specification. -/
theorem step_refines (cos sin : F64) (s s' : HitWorker) (hs : List DisplayHit) (os cl : List (List DisplayHit))
    (hh : HoldsClusters cos sin s os cl) (hc : ClustersOf hs os cl) (h : DisplayHit) (hstep : s.step cos sin h = .ok s') :
    ∃ os' cl', HoldsClusters cos sin s' os' cl' ∧ ClustersOf (hs ++ [h]) os' cl' := by
  cases hf : (List.range 128).find? (fun i => (s.slots i).takes h) with
  | some i =>
    obtain ⟨k, hk, -, hj, hadd⟩ := step_some cos sin s os cl hh h i hf
    unfold HitWorker.step at hstep
    rw [hf] at hstep
    obtain ⟨c, e1, e2⟩ := bind_ok hstep
    injection e2 with e2
    obtain ⟨-, h2⟩ := hadd c e1
    rw [e2] at h2
    refine ⟨_, _, h2, ?_⟩
    rw [List.set_eq_take_append_cons_drop, if_pos hk]
    apply ClustersOf.join _ _ _ _ _ _ _ hj
    rw [List.getElem_cons_drop, List.take_append_drop]
    exact hc
  | none =>
    have hn := (none_joins cos sin s os cl hh h).mp hf
    have hfull : (s.pindex + 1) % 128 = s.cindex ↔ os.length = 127 := by
      have := hh.pidx; have := hh.cidx; have := hh.len; omega
    have hstep' := hstep
    unfold HitWorker.step at hstep
    rw [hf] at hstep
    simp only at hstep
    by_cases hl : os.length = 127
    · rw [if_pos (hfull.mpr hl)] at hstep
      obtain ⟨l, e1, e2⟩ := bind_ok hstep
      obtain ⟨c, e3, -⟩ := bind_ok e2
      cases os with
      | nil => simp at hl
      | cons g os =>
        obtain ⟨t, t1, t2⟩ := step_recycle cos sin s g os cl hh h hn hl c e3 l (by
          split_ifs at e1 ⊢ with hx
          · exact e1
          · injection e1 with e1; exact e1.symm)
        rw [hstep'] at t1
        injection t1 with t1
        rw [← t1] at t2
        exact ⟨_, _, t2, ClustersOf.recycles _ _ _ _ _ hc hn hl⟩
    · rw [if_neg (fun he => hl (hfull.mp he))] at hstep
      obtain ⟨c, e3, -⟩ := bind_ok hstep
      have hl' : os.length < 127 := by have := hh.len; omega
      obtain ⟨t, t1, t2⟩ := step_open cos sin s os cl hh h hn hl' c e3
      rw [hstep'] at t1
      injection t1 with t1
      rw [← t1] at t2
      exact ⟨_, _, t2, ClustersOf.opens _ _ _ _ hc hn hl'⟩

theorem run_refines (cos sin : F64) (more : List DisplayHit) : ∀ (s s' : HitWorker) (hs : List DisplayHit)
    (os cl : List (List DisplayHit)), HoldsClusters cos sin s os cl → ClustersOf hs os cl → s.run cos sin more = .ok s' →
    ∃ os' cl', HoldsClusters cos sin s' os' cl' ∧ ClustersOf (hs ++ more) os' cl' := by
  induction more with
  | nil =>
    intro s s' hs os cl hh hc hr
    injection hr with hr
    subst hr
    exact ⟨os, cl, hh, by simpa using hc⟩
  | cons h more ih =>
    intro s s' hs os cl hh hc hr
    obtain ⟨t, e1, e2⟩ := bind_ok hr
    obtain ⟨os', cl', h1, h2⟩ := step_refines cos sin s t hs os cl hh hc h e1
    obtain ⟨os'', cl'', h3, h4⟩ := ih t s' (hs ++ [h]) os' cl' h1 h2 e2
    exact ⟨os'', cl'', h3, by simpa using h4⟩

/-- C67: what the program does with the hits is a way to put them into clusters one after the other, and what it adds to the
picture comes from the closed clusters with more than ten hits, in their order. -/
theorem c67_clusters_partial (cos sin : F64) (hits : List DisplayHit) (s : HitWorker)
    (hr : HitWorker.init.run cos sin hits = .ok s) :
    ∃ os cl, ClustersOf hits os cl ∧ List.Forall₂ Summarises s.popped cl ∧ s.total = cl.length ∧
      s.accepted = (cl.countP fun g => 10 < g.length) ∧
      ∃ ls, List.Forall₂ (fun c l => if 10 < c.totalpix then c.place cos sin = .ok l else l = []) s.popped ls ∧
        s.shown = ls.flatten := by
  obtain ⟨os, cl, h1, h2⟩ := run_refines cos sin hits _ s [] [] [] (holdsClusters_init cos sin) ClustersOf.nil hr
  exact ⟨os, cl, by simpa using h2, h1.popped, h1.total, h1.accepted, h1.shown⟩

/-- C67: a way to put hits into clusters loses none and repeats none; every cluster is a subsequence of the hits, and its
hits are at most two ticks from its first. -/
theorem c67_partition (hits : List DisplayHit) (os cl : List (List DisplayHit)) (hc : ClustersOf hits os cl) :
    (cl.flatten ++ os.flatten).Perm hits ∧ os.length ≤ 127 ∧
      ∀ g ∈ cl ++ os, g.Sublist hits ∧ ∃ f, g.head? = some f ∧ ∀ h ∈ g, f.spdr ≤ h.spdr + 2 ∧ h.spdr ≤ f.spdr + 2 := by
  induction hc with
  | nil => simp
  | join hs a b cl g h _ hj ih =>
    obtain ⟨i1, i2, i3⟩ := ih
    refine ⟨?_, by simpa using i2, ?_⟩
    · refine List.Perm.trans ?_ (List.Perm.append_right [h] i1)
      simp only [List.flatten_append, List.flatten_cons, List.append_assoc]
      refine List.Perm.append_left _ (List.Perm.append_left _ (List.Perm.append_left _ ?_))
      exact List.perm_append_comm
    · intro g' hg'
      have : g' = g ++ [h] ∨ g' ∈ cl ++ (a ++ g :: b) := by
        simp only [List.mem_append, List.mem_cons] at hg' ⊢
        tauto
      rcases this with rfl | hm
      · obtain ⟨j1, f, j2, j3⟩ := i3 g (by simp)
        refine ⟨List.Sublist.append j1 (List.Sublist.refl _), f, ?_, ?_⟩
        · rw [List.head?_append, j2]; rfl
        · obtain ⟨⟨f', e, w1, w2⟩, -⟩ := hj
          rw [j2] at e
          injection e with e
          subst e
          intro x hx
          rcases List.mem_append.mp hx with hx | hx
          · exact j3 x hx
          · rw [List.mem_singleton.mp hx]; exact ⟨w1, w2⟩
      · obtain ⟨j1, j2⟩ := i3 g' hm
        exact ⟨j1.trans (List.sublist_append_left _ _), j2⟩
  | opens hs os cl h _ _ hl ih =>
    obtain ⟨i1, i2, i3⟩ := ih
    refine ⟨?_, by simp; omega, ?_⟩
    · simpa using List.Perm.append_right [h] i1
    · intro g hg
      have : g = [h] ∨ g ∈ cl ++ os := by
        simp only [List.mem_append, List.mem_singleton] at hg ⊢
        tauto
      rcases this with rfl | hm
      · exact ⟨List.sublist_append_right _ _, h, rfl, by simp⟩
      · obtain ⟨j1, j2⟩ := i3 g hm
        exact ⟨j1.trans (List.sublist_append_left _ _), j2⟩
  | recycles hs os cl g0 h _ _ hl ih =>
    obtain ⟨i1, i2, i3⟩ := ih
    refine ⟨?_, by simp at hl ⊢; omega, ?_⟩
    · simpa using List.Perm.append_right [h] i1
    · intro g hg
      have : g = [h] ∨ g ∈ cl ++ (g0 :: os) := by
        simp only [List.mem_append, List.mem_cons] at hg ⊢
        tauto
      rcases this with rfl | hm
      · exact ⟨List.sublist_append_right _ _, h, rfl, by simp⟩
      · obtain ⟨j1, j2⟩ := i3 g hm
        exact ⟨j1.trans (List.sublist_append_left _ _), j2⟩

/-- Clusters are not empty. -/
theorem clusters_length (hits : List DisplayHit) (os cl : List (List DisplayHit)) (hc : ClustersOf hits os cl) :
    cl.length + os.length ≤ hits.length ∧ (cl ≠ [] → 127 ≤ os.length) := by
  induction hc with
  | nil => simp
  | join hs a b cl g h _ _ ih => simp at ih ⊢; exact ⟨by omega, fun hn => by have := ih.2 hn; omega⟩
  | opens hs os cl h _ _ _ ih => simp at ih ⊢; exact ⟨by omega, fun hn => by have := ih.2 hn; omega⟩
  | recycles hs os cl g h _ _ hl ih => simp at ih hl ⊢; omega

/-- C67 is false: the clusters that are open at the end are not shown; of a file of up to 127 hits nothing is. -/
theorem c67_false (cos sin : F64) (hits : List DisplayHit) (hl : hits.length ≤ 127) (s : HitWorker)
    (hr : HitWorker.init.run cos sin hits = .ok s) : s.total = 0 ∧ s.shown = [] := by
  obtain ⟨os, cl, h1, h2, h3, -, ls, h5, h6⟩ := c67_clusters_partial cos sin hits s hr
  have hcl : cl = [] := by
    by_contra hne
    have := clusters_length hits os cl h1
    have := this.2 hne
    have : 0 < cl.length := List.length_pos_of_ne_nil hne
    omega
  subst hcl
  have hp : s.popped = [] := by
    cases hpp : s.popped with
    | nil => rfl
    | cons a b => rw [hpp] at h2; cases h2
  rw [hp] at h5
  cases h5
  exact ⟨h3, h6⟩

/-! ## Arithmetic -/

theorem rnd_between {q : ℚ} (m : ℤ) (hm : |m| ≤ 2 ^ 53) (h : |q| ≤ m) : |rndQ q| ≤ m := by
  rw [abs_le] at h ⊢
  have h1 := rndQ_mono h.1
  have h2 := rndQ_mono h.2
  rw [rndQ_neg] at h1
  rw [rndQ_int hm] at h1 h2
  exact ⟨h1, h2⟩

theorem ofRat_between {q : ℚ} (m : ℤ) (hm : |m| ≤ 2 ^ 53) (h : |q| ≤ m) : ∃ r : ℚ, F64.ofRat q = .fin r ∧ |r| ≤ m := by
  have h0 : |q| ≤ (2 : ℚ) ^ (1000 : ℤ) := by
    have : (m : ℚ) ≤ 2 ^ 53 := by
      have := le_trans (le_abs_self m) hm
      exact_mod_cast this
    have h2 : (2 : ℚ) ^ 53 ≤ (2 : ℚ) ^ (1000 : ℤ) := by
      rw [show (1000 : ℤ) = ((1000 : ℕ) : ℤ) from rfl, zpow_natCast]
      exact pow_le_pow_right₀ (by norm_num) (by norm_num)
    exact le_trans h (le_trans this h2)
  exact ⟨_, F64.ofRat_fin h0, rnd_between m hm h⟩

theorem truncQ_between {q : ℚ} (m : ℤ) (h : |q| ≤ m) : |F64.truncQ q| ≤ m := by
  rw [abs_le] at h ⊢
  unfold F64.truncQ
  split_ifs with h0
  · refine ⟨?_, ?_⟩
    · have : 0 ≤ ⌊q⌋ := Int.floor_nonneg.mpr h0
      have : (0 : ℚ) ≤ m := le_trans h0 h.2
      have : 0 ≤ m := by exact_mod_cast this
      omega
    · have := Int.floor_le q
      have : (⌊q⌋ : ℚ) ≤ m := le_trans this h.2
      exact_mod_cast this
  · refine ⟨?_, ?_⟩
    · have := Int.le_ceil q
      have : (-m : ℚ) ≤ ⌈q⌉ := le_trans h.1 this
      exact_mod_cast this
    · have : ⌈q⌉ ≤ m := Int.ceil_le.mpr h.2
      exact this

/-- The mean of a cluster with positive TOT is a number between 0 and eight times 511. -/
theorem mean_ok (r t : ℤ) (ht : 0 < t) (ht' : t < 2 ^ 31) (hr0 : 0 ≤ r) (hr' : r < 2 ^ 31) (hr : r ≤ 511 * t) :
    ∃ q : ℚ, F64.div (F64.mul (F64.ofInt 8) (F64.ofInt r)) (F64.ofInt t) = .fin q ∧ |q| ≤ (4088 : ℤ) := by
  rw [F64.ofInt_exact (n := 8) (by norm_num), F64.ofInt_exact (n := r) (by rw [abs_of_nonneg hr0]; omega),
    F64.ofInt_exact (n := t) (by rw [abs_of_pos ht]; omega)]
  have h1 : F64.mul (.fin ((8 : ℤ) : ℚ)) (.fin (r : ℚ)) = .fin ((8 * r : ℤ) : ℚ) := by
    show F64.ofRat _ = _
    rw [← Int.cast_mul]
    exact F64.ofRat_int (by rw [abs_of_nonneg (by omega)]; omega)
  rw [h1]
  have htq : (0 : ℚ) < t := by exact_mod_cast ht
  have h2 : F64.div (.fin ((8 * r : ℤ) : ℚ)) (.fin (t : ℚ)) = F64.ofRat (((8 * r : ℤ) : ℚ) / t) := by
    show (if (t : ℚ) = 0 then _ else _) = _
    rw [if_neg (ne_of_gt htq)]
  rw [h2]
  apply ofRat_between 4088 (by norm_num)
  have hrq : (r : ℚ) ≤ 511 * t := by exact_mod_cast hr
  have hr0q : (0 : ℚ) ≤ r := by exact_mod_cast hr0
  rw [abs_of_nonneg (by push_cast; positivity), div_le_iff₀ htq]
  push_cast
  linarith

/-- A cluster with positive TOT has a place or none, but not an undefined one. -/
theorem place_ok (c : ShownCluster) (cs sn : ℚ) (hcs : |cs| ≤ 1) (hsn : |sn| ≤ 1) (ht : 0 < c.totalTOT)
    (ht' : c.totalTOT < 2 ^ 31) (hx0 : 0 ≤ c.runningX) (hx' : c.runningX < 2 ^ 31) (hx : c.runningX ≤ 511 * c.totalTOT)
    (hy0 : 0 ≤ c.runningY) (hy' : c.runningY < 2 ^ 31) (hy : c.runningY ≤ 511 * c.totalTOT) :
    ∃ l, c.place (.fin cs) (.fin sn) = .ok l := by
  obtain ⟨x, ex, bx⟩ := mean_ok _ _ ht ht' hx0 hx' hx
  obtain ⟨y, ey, b_y⟩ := mean_ok _ _ ht ht' hy0 hy' hy
  have prod : ∀ a b : ℚ, |a| ≤ (4088 : ℤ) → |b| ≤ 1 → ∃ r : ℚ, F64.mul (.fin a) (.fin b) = .fin r ∧ |r| ≤ (4088 : ℤ) := by
    intro a b ha hb
    apply ofRat_between 4088 (by norm_num)
    rw [abs_mul]
    have := abs_nonneg a
    have := abs_nonneg b
    nlinarith
  have cast : ∀ a b : ℚ, |a| ≤ (4088 : ℤ) → |b| ≤ (4088 : ℤ) → ∃ i, (F64.add (.fin a) (.fin b)).toI32? = some i := by
    intro a b ha hb
    obtain ⟨r, e, hr⟩ := ofRat_between (q := a + b) 8176 (by norm_num) (by
      have := abs_add_le a b
      push_cast at ha hb ⊢
      linarith)
    have e' : F64.add (.fin a) (.fin b) = .fin r := e
    rw [e']
    have ht := truncQ_between 8176 hr
    rw [abs_le] at ht
    refine ⟨F64.truncQ r, ?_⟩
    show (if _ then _ else _) = _
    rw [if_pos ⟨by omega, by omega⟩]
  obtain ⟨p1, e1, b1⟩ := prod x cs bx hcs
  obtain ⟨p2, e2, b2⟩ := prod y sn b_y hsn
  obtain ⟨p3, e3, b3⟩ := prod x sn bx hsn
  obtain ⟨p4, e4, b4⟩ := prod y cs b_y hcs
  obtain ⟨i, hi⟩ := cast p1 (-p2) b1 (by rwa [abs_neg])
  obtain ⟨j, hj⟩ := cast p3 p4 b3 b4
  refine ⟨if 0 ≤ i ∧ i < 4096 ∧ 0 ≤ j ∧ j < 4096 then [(i, j)] else [], ?_⟩
  unfold ShownCluster.place
  simp only [ex, ey, e1, e2, e3, e4]
  have hsub : F64.sub (.fin p1) (.fin p2) = F64.add (.fin p1) (.fin (-p2)) := rfl
  rw [hsub, hi, hj]

theorem asInt_of {n : Int} (h1 : -2 ^ 31 ≤ n) (h2 : n < 2 ^ 31) : asInt n = .ok n := by
  unfold asInt
  rw [if_pos ⟨h1, h2⟩]

theorem prod_bound {a b : Int} (h1 : 0 ≤ a) (h2 : a ≤ 1023) (h3 : 0 ≤ b) (h4 : b ≤ 511) : 0 ≤ a * b ∧ a * b ≤ 522753 := by
  refine ⟨by positivity, ?_⟩
  nlinarith

/-- Sums over a cluster of hits of the detector. -/
theorem sums_bound (g : List DisplayHit) (hg : ∀ h ∈ g, IsPixelHit h) :
    (0 ≤ (g.map (·.tot)).sum ∧ (g.map (·.tot)).sum ≤ 1023 * g.length) ∧
    (0 ≤ (g.map fun h => h.tot * h.x).sum ∧ (g.map fun h => h.tot * h.x).sum ≤ 522753 * g.length ∧
      (g.map fun h => h.tot * h.x).sum ≤ 511 * (g.map (·.tot)).sum) ∧
    (0 ≤ (g.map fun h => h.tot * h.y).sum ∧ (g.map fun h => h.tot * h.y).sum ≤ 522753 * g.length ∧
      (g.map fun h => h.tot * h.y).sum ≤ 511 * (g.map (·.tot)).sum) := by
  induction g with
  | nil => simp
  | cons a g ih =>
    obtain ⟨⟨i1, i2⟩, ⟨i3, i4, i5⟩, i6, i7, i8⟩ := ih (fun h hh => hg h (by simp [hh]))
    obtain ⟨t1, t2, x1, x2, y1, y2⟩ := hg a (by simp)
    obtain ⟨p1, p2⟩ := prod_bound t1 t2 x1 x2
    obtain ⟨q1, q2⟩ := prod_bound t1 t2 y1 y2
    have p3 : a.tot * a.x ≤ 511 * a.tot := by nlinarith
    have q3 : a.tot * a.y ≤ 511 * a.tot := by nlinarith
    simp only [List.map_cons, List.sum_cons, List.length_cons]
    push_cast
    refine ⟨⟨?_, ?_⟩, ⟨?_, ?_, ?_⟩, ?_, ?_, ?_⟩ <;> linarith

theorem tot_pos (g : List DisplayHit) (hg : ∀ h ∈ g, IsPixelHit h) (hp : ∃ h ∈ g, 0 < h.tot) : 0 < (g.map (·.tot)).sum := by
  induction g with
  | nil => simp at hp
  | cons a g ih =>
    have h0 := (sums_bound g (fun h hh => hg h (by simp [hh]))).1.1
    obtain ⟨t1, -⟩ := hg a (by simp)
    simp only [List.map_cons, List.sum_cons]
    obtain ⟨h, hm, hh⟩ := hp
    rcases List.mem_cons.mp hm with rfl | hm
    · linarith
    · have := ih (fun h hh => hg h (by simp [hh])) ⟨h, hm, hh⟩
      linarith

theorem single_ok (h : DisplayHit) (hh : IsPixelHit h) : ∃ c, ShownCluster.single h = .ok c := by
  obtain ⟨t1, t2, x1, x2, y1, y2⟩ := hh
  obtain ⟨p1, p2⟩ := prod_bound t1 t2 x1 x2
  obtain ⟨q1, q2⟩ := prod_bound t1 t2 y1 y2
  unfold ShownCluster.single
  rw [asInt_of (n := h.x * h.tot) (by rw [mul_comm]; omega) (by rw [mul_comm]; omega),
    asInt_of (n := h.y * h.tot) (by rw [mul_comm]; omega) (by rw [mul_comm]; omega)]
  exact ⟨_, rfl⟩

theorem add_ok (c : ShownCluster) (g : List DisplayHit) (h : DisplayHit) (hs : Summarises c g) (hg : ∀ a ∈ g, IsPixelHit a)
    (hh : IsPixelHit h) (hl : g.length < 4108) : ∃ c', c.add h = .ok c' := by
  obtain ⟨⟨i1, i2⟩, ⟨i3, i4, -⟩, i6, i7, -⟩ := sums_bound g hg
  obtain ⟨t1, t2, x1, x2, y1, y2⟩ := hh
  obtain ⟨p1, p2⟩ := prod_bound t1 t2 x1 x2
  obtain ⟨q1, q2⟩ := prod_bound t1 t2 y1 y2
  have e1 := hs.pix
  have e2 := hs.tot
  have e3 := hs.rx
  have e4 := hs.ry
  rw [← e2] at i1 i2
  rw [← e3] at i3 i4
  rw [← e4] at i6 i7
  unfold ShownCluster.add
  rw [asInt_of (n := c.totalpix + 1) (by omega) (by omega), asInt_of (n := h.tot * h.x) (by omega) (by omega),
    asInt_of (n := h.tot * h.y) (by omega) (by omega)]
  simp only [bind, Res.bind]
  rw [asInt_of (n := c.runningX + h.tot * h.x) (by omega) (by omega),
    asInt_of (n := c.runningY + h.tot * h.y) (by omega) (by omega), asInt_of (n := c.totalTOT + h.tot) (by omega) (by omega)]
  exact ⟨_, rfl⟩

/-- No cluster gets more hits than it can hold. -/
theorem run_ok (cs sn : ℚ) (hcs : |cs| ≤ 1) (hsn : |sn| ≤ 1) (all : List DisplayHit)
    (hpix : ∀ h ∈ all, IsPixelHit h ∧ 0 < h.tot)
    (hsize : ∀ hs os cl, hs <+: all → ClustersOf hs os cl → ∀ g ∈ os, g.length ≤ 4108) (more : List DisplayHit) :
    ∀ (s : HitWorker) (hs : List DisplayHit) (os cl : List (List DisplayHit)), HoldsClusters (.fin cs) (.fin sn) s os cl →
      ClustersOf hs os cl → all = hs ++ more → ∃ s', s.run (.fin cs) (.fin sn) more = .ok s' := by
  induction more with
  | nil => intro s hs os cl _ _ _; exact ⟨s, rfl⟩
  | cons h more ih =>
    intro s hs os cl hh hc hall
    have hin : ∀ a ∈ hs ++ [h], a ∈ all := by
      intro a ha
      rw [hall]
      simp only [List.mem_append, List.mem_cons, List.not_mem_nil, or_false] at ha ⊢
      tauto
    have hh' := hpix h (hin h (by simp))
    obtain ⟨-, -, part⟩ := c67_partition hs os cl hc
    have gpix : ∀ g ∈ os, ∀ a ∈ g, IsPixelHit a ∧ 0 < a.tot := fun g hg a ha =>
      hpix a (hin a (by simp [(part g (by simp [hg])).1.subset ha]))
    have hstep : ∃ t, s.step (.fin cs) (.fin sn) h = .ok t := by
      cases hf : (List.range 128).find? (fun i => (s.slots i).takes h) with
      | some i =>
        obtain ⟨k, hk, he, hj, hadd⟩ := step_some _ _ s os cl hh h i hf
        obtain ⟨u1, u2⟩ := hh.used k hk
        rw [← he] at u2
        have hm : os[k] ∈ os := List.getElem_mem hk
        have hlen : os[k].length < 4108 := by
          have hsplit : os = os.take k ++ os[k] :: os.drop (k + 1) := by rw [List.getElem_cons_drop, List.take_append_drop]
          rw [hsplit] at hc
          have := hsize (hs ++ [h]) _ _ ⟨more, by rw [hall]; simp⟩ (ClustersOf.join _ _ _ _ _ h hc hj) (os[k] ++ [h]) (by simp)
          rw [List.length_append, List.length_singleton] at this
          omega
        obtain ⟨c, hcadd⟩ := add_ok _ _ h u2 (fun a ha => (gpix _ hm a ha).1) hh'.1 hlen
        exact ⟨_, (hadd c hcadd).1⟩
      | none =>
        have hn := (none_joins _ _ s os cl hh h).mp hf
        obtain ⟨c, hcs'⟩ := single_ok h hh'.1
        by_cases hl : os.length = 127
        · cases os with
          | nil => simp at hl
          | cons g os =>
            have hcx := hh.cidx
            have hu0 := hh.used 0 (by simp)
            rw [Nat.add_zero, Nat.mod_eq_of_lt hcx] at hu0
            have hg : Summarises (s.slots s.cindex) g := hu0.2
            have hgm : g ∈ g :: os := by simp
            have gp := gpix g hgm
            obtain ⟨p1, f, p2, p3⟩ := part g (by simp)
            have hlen : g.length ≤ 4108 := hsize hs _ _ ⟨h :: more, hall.symm⟩ hc g hgm
            obtain ⟨⟨i1, i2⟩, ⟨i3, i4, i5⟩, i6, i7, i8⟩ := sums_bound g fun a ha => (gp a ha).1
            have hpos : 0 < (g.map (·.tot)).sum := by
              cases g with
              | nil => simp at p2
              | cons a g => exact tot_pos _ (fun a ha => (gp a ha).1) ⟨a, by simp, (gp a (by simp)).2⟩
            rw [← hg.tot] at i1 i2 i5 i8 hpos
            rw [← hg.rx] at i3 i4 i5
            rw [← hg.ry] at i6 i7 i8
            have hpl : ∃ l, if 10 < (s.slots s.cindex).totalpix then
                (s.slots s.cindex).place (.fin cs) (.fin sn) = .ok l else l = [] := by
              split_ifs with hx
              · exact place_ok _ cs sn hcs hsn hpos (by omega) i3 (by omega) i5 i6 (by omega) i8
              · exact ⟨[], rfl⟩
            obtain ⟨l, hpl⟩ := hpl
            obtain ⟨t, t1, -⟩ := step_recycle _ _ s g os cl hh h hn hl c hcs' l hpl
            exact ⟨t, t1⟩
        · obtain ⟨t, t1, -⟩ := step_open _ _ s os cl hh h hn (by have := hh.len; omega) c hcs'
          exact ⟨t, t1⟩
    obtain ⟨t, ht⟩ := hstep
    obtain ⟨os', cl', h1, h2⟩ := step_refines _ _ s t hs os cl hh hc h ht
    obtain ⟨s', hs'⟩ := ih t (hs ++ [h]) os' cl' h1 h2 (by rw [hall]; simp)
    exact ⟨s', by rw [HitWorker.run, ht]; exact hs'⟩

/-- No cluster gets more than 4108 hits if there are no more in any five consecutive ticks. -/
theorem rate_size (all : List DisplayHit) (hrate : ∀ t : Int, (all.countP fun h => t ≤ h.spdr + 2 ∧ h.spdr ≤ t + 2) ≤ 4108)
    (hs : List DisplayHit) (os cl : List (List DisplayHit)) (hp : hs <+: all) (hc : ClustersOf hs os cl) :
    ∀ g ∈ os, g.length ≤ 4108 := by
  intro g hg
  obtain ⟨-, -, part⟩ := c67_partition hs os cl hc
  obtain ⟨p1, f, p2, p3⟩ := part g (by simp [hg])
  have hcount := List.Sublist.countP_le (p := fun h => decide (f.spdr ≤ h.spdr + 2 ∧ h.spdr ≤ f.spdr + 2)) (p1.trans hp.sublist)
  have hfull : g.countP (fun h => decide (f.spdr ≤ h.spdr + 2 ∧ h.spdr ≤ f.spdr + 2)) = g.length := by
    rw [List.countP_eq_length]
    intro a ha
    simpa using p3 a ha
  rw [hfull] at hcount
  exact le_trans hcount (hrate f.spdr)

/-- C68: with hits of the detector of positive TOT, at most 4108 of them in any five ticks, nothing undefined happens. -/
theorem c68_safe_partial (cs sn : ℚ) (hcs : |cs| ≤ 1) (hsn : |sn| ≤ 1) (hits : List DisplayHit)
    (hpix : ∀ h ∈ hits, IsPixelHit h ∧ 0 < h.tot)
    (hrate : ∀ t : Int, (hits.countP fun h => t ≤ h.spdr + 2 ∧ h.spdr ≤ t + 2) ≤ 4108) :
    ∃ s, HitWorker.init.run (.fin cs) (.fin sn) hits = .ok s :=
  run_ok cs sn hcs hsn hits hpix (rate_size hits hrate) hits HitWorker.init [] [] [] (holdsClusters_init _ _) ClustersOf.nil rfl

/-- C68: increments are inside the 4096 by 4096 elements of `my2dhisto`, whatever the hits are. -/
theorem c68_bounds (cos sin : F64) (hits : List DisplayHit) (s : HitWorker)
    (hr : HitWorker.init.run cos sin hits = .ok s) :
    ∀ p ∈ s.shown, 0 ≤ 4096 * p.2 + p.1 ∧ 4096 * p.2 + p.1 < 4096 * 4096 := by
  obtain ⟨os, cl, -, -, -, -, ls, h5, h6⟩ := c67_clusters_partial cos sin hits s hr
  rw [h6]
  clear hr h6
  intro p hp
  obtain ⟨l, hl, hpl⟩ := List.mem_flatten.mp hp
  obtain ⟨c, -, hc⟩ : ∃ c ∈ s.popped, if 10 < c.totalpix then c.place cos sin = .ok l else l = [] := by
    clear hp hpl
    generalize s.popped = ps at h5
    induction h5 with
    | nil => cases hl
    | cons h _ ih =>
      rcases List.mem_cons.mp hl with rfl | hl
      · exact ⟨_, by simp, h⟩
      · obtain ⟨c, c1, c2⟩ := ih hl
        exact ⟨c, by simp [c1], c2⟩
  split_ifs at hc with hx
  · unfold ShownCluster.place at hc
    simp only at hc
    split at hc
    · split_ifs at hc with hb
      · injection hc with hc
        subst hc
        rw [List.mem_singleton] at hpl
        subst hpl
        simp only
        omega
      · injection hc with hc
        subst hc
        cases hpl
    · cases hc
  · subst hc
    cases hpl

/-! ## Witnesses -/

theorem run_append (cos sin : F64) (a b : List DisplayHit) : ∀ s : HitWorker,
    s.run cos sin (a ++ b) = (s.run cos sin a).bind fun s' => s'.run cos sin b := by
  induction a with
  | nil => intro s; rfl
  | cons h a ih =>
    intro s
    show (s.step cos sin h).bind _ = ((s.step cos sin h).bind _).bind _
    cases s.step cos sin h with
    | ok t => exact ih t
    | throws m => rfl
    | ub u => rfl

theorem joins_same (h : DisplayHit) (n : Nat) : Joins (List.replicate (n + 1) h) h := by
  refine ⟨⟨h, rfl, by omega, by omega⟩, ⟨h, by simp, by omega⟩, ⟨h, by simp, by omega⟩, ⟨h, by simp, by omega⟩,
    ⟨h, by simp, by omega⟩⟩

/-- The same hit again and again is one cluster. -/
theorem run_same (cos sin : F64) (h : DisplayHit) (hh : IsPixelHit h) (n : Nat) (hn : n < 4108) :
    ∃ s, HitWorker.init.run cos sin (List.replicate (n + 1) h) = .ok s ∧
      HoldsClusters cos sin s [List.replicate (n + 1) h] [] := by
  induction n with
  | zero =>
    obtain ⟨c, hc⟩ := single_ok h hh
    obtain ⟨s, e, k⟩ := step_open cos sin _ [] [] (holdsClusters_init cos sin) h (by simp) (by simp) c hc
    refine ⟨s, ?_, k⟩
    show (HitWorker.init.step cos sin h).bind _ = _
    rw [e]
    rfl
  | succ n ih =>
    obtain ⟨s, e, k⟩ := ih (by omega)
    rw [List.replicate_succ' (n := n + 1), run_append, e]
    show ∃ s', s.run cos sin [h] = .ok s' ∧ _
    cases hf : (List.range 128).find? (fun i => (s.slots i).takes h) with
    | none => exact absurd (joins_same h n) ((none_joins cos sin s _ _ k h).mp hf _ (by simp))
    | some i =>
      obtain ⟨j, hj, he, -, hadd⟩ := step_some cos sin s _ _ k h i hf
      obtain rfl : j = 0 := by simpa using hj
      obtain ⟨u1, u2⟩ := k.used 0 hj
      rw [← he] at u2
      obtain ⟨c, hc⟩ := add_ok _ _ h u2 (by intro a ha; rw [List.eq_of_mem_replicate ha]; exact hh) hh
        (by simp; omega)
      obtain ⟨t1, t2⟩ := hadd c hc
      refine ⟨_, ?_, t2⟩
      show (s.step cos sin h).bind _ = _
      rw [t1]
      rfl

/-- A hit with the largest TOT in the last column. -/
def brightHit : DisplayHit := ⟨0, 1023, 0, 511, 0, 0, 0⟩

/-- C68 is false: one cluster of 4109 hits can overflow `runningX`. -/
theorem c68_false_overflow (cos sin : F64) :
    HitWorker.init.run cos sin (List.replicate 4109 brightHit) = .ub .signedOverflow := by
  obtain ⟨n, hn⟩ : ∃ n : Nat, n = 4107 := ⟨_, rfl⟩
  obtain ⟨s, e, k⟩ := run_same cos sin brightHit (by decide) n (by omega)
  have hrep : List.replicate 4109 brightHit = List.replicate (n + 1) brightHit ++ [brightHit] := by
    rw [← List.replicate_succ', hn]
  rw [hrep, run_append, e]
  show s.run cos sin [brightHit] = _
  cases hf : (List.range 128).find? (fun i => (s.slots i).takes brightHit) with
  | none => exact absurd (joins_same brightHit n) ((none_joins cos sin s _ _ k _).mp hf _ (List.mem_singleton.mpr rfl))
  | some i =>
    obtain ⟨j, hj, he, -, -⟩ := step_some cos sin s _ _ k _ i hf
    obtain rfl : j = 0 := by simpa using hj
    obtain ⟨u1, u2⟩ := k.used 0 hj
    rw [← he] at u2
    have h1 := u2.rx
    have h2 := u2.pix
    simp only [List.getElem_cons_zero, List.map_replicate, List.sum_replicate, List.length_replicate, hn, brightHit] at h1 h2
    norm_num at h1 h2
    have hadd : (s.slots i).add brightHit = .ub .signedOverflow := by
      unfold ShownCluster.add
      rw [h1, h2]
      have a1 : asInt (4108 + 1) = .ok 4109 := by decide
      have a2 : asInt (brightHit.tot * brightHit.x) = .ok 522753 := by decide
      have a3 : asInt (2147469324 + 522753) = .ub .signedOverflow := by decide
      simp only [a1, a2, a3, bind, Res.bind]
    show (s.step cos sin _).bind _ = _
    unfold HitWorker.step
    rw [hf]
    simp only
    rw [hadd]
    rfl

/-- A hit with no TOT. -/
def darkHit : DisplayHit := ⟨0, 0, 0, 0, 0, 0, 0⟩

/-- Hits far from each other in time. -/
def farHit (k : Nat) : DisplayHit := ⟨0, 1, 0, 0, 0, 10 * ((k : Int) + 1), 0⟩

theorem far_pixel (k : Nat) : IsPixelHit (farHit k) := by simp [IsPixelHit, farHit]

theorem far_joins (k : Nat) (g : List DisplayHit)
    (hg : g ∈ List.replicate 11 darkHit :: (List.range k).map fun i => [farHit i]) : ¬ Joins g (farHit k) := by
  rintro ⟨⟨f, e, h1, h2⟩, -⟩
  rcases List.mem_cons.mp hg with rfl | hg
  · have : darkHit = f := by simpa using e
    subst this
    simp only [farHit, darkHit] at h1 h2
    omega
  · obtain ⟨i, hi, rfl⟩ := List.mem_map.mp hg
    have := List.mem_range.mp hi
    have : farHit i = f := by simpa using e
    subst this
    simp only [farHit] at h1 h2
    omega

/-- Eleven dark hits and then hits far from each other. -/
theorem run_far (cos sin : F64) (k : Nat) (hk : k ≤ 126) :
    ∃ s, HitWorker.init.run cos sin (List.replicate 11 darkHit ++ (List.range k).map farHit) = .ok s ∧
      HoldsClusters cos sin s (List.replicate 11 darkHit :: (List.range k).map fun i => [farHit i]) [] := by
  induction k with
  | zero => simpa using run_same cos sin darkHit (by decide) 10 (by norm_num)
  | succ k ih =>
    obtain ⟨s, e, hh⟩ := ih (by omega)
    obtain ⟨c, hc⟩ := single_ok (farHit k) (far_pixel k)
    obtain ⟨t, t1, t2⟩ := step_open cos sin s _ _ hh (farHit k) (far_joins k) (by simp; omega) c hc
    refine ⟨t, ?_, by simpa [List.range_succ] using t2⟩
    rw [List.range_succ, List.map_append, ← List.append_assoc, run_append, e]
    show (s.step cos sin (farHit k)).bind _ = _
    rw [t1]
    rfl

/-- C68 is false: the mean of a cluster of eleven hits without TOT is 0/0, and converting it to `int` is undefined. -/
theorem c68_false_nan (cos sin : F64) :
    HitWorker.init.run cos sin (List.replicate 11 darkHit ++ (List.range 127).map farHit) = .ub .floatToInt := by
  obtain ⟨s, e, hh⟩ := run_far cos sin 126 (by norm_num)
  rw [List.range_succ, List.map_append, ← List.append_assoc, run_append, e]
  show (s.step cos sin (farHit 126)).bind _ = _
  have hcx := hh.cidx
  have hp := hh.pidx
  have hu0 := hh.used 0 (by simp)
  rw [Nat.add_zero, Nat.mod_eq_of_lt hcx] at hu0
  have hg : Summarises (s.slots s.cindex) (List.replicate 11 darkHit) := hu0.2
  have h1 := hg.pix
  have h2 := hg.tot
  have h3 := hg.rx
  have h4 := hg.ry
  simp [darkHit] at h1 h2 h3 h4
  have hz : F64.div (F64.mul (F64.ofInt 8) (F64.ofInt 0)) (F64.ofInt 0) = .nan := by
    rw [F64.ofInt_exact (n := 8) (by norm_num), F64.ofInt_exact (n := 0) (by norm_num)]
    have : F64.mul (.fin ((8 : ℤ) : ℚ)) (.fin ((0 : ℤ) : ℚ)) = .fin ((0 : ℤ) : ℚ) := by
      show F64.ofRat _ = _
      rw [← Int.cast_mul]
      exact F64.ofRat_int (by norm_num)
    rw [this]
    simp [F64.div]
  have hpl : (s.slots s.cindex).place cos sin = .ub .floatToInt := by
    unfold ShownCluster.place
    simp only [h2, h3, h4, hz]
    rfl
  unfold HitWorker.step
  rw [(none_joins cos sin s _ _ hh (farHit 126)).mpr (far_joins 126)]
  simp only [List.length_cons, List.length_map, List.length_range] at hp
  simp only
  rw [if_pos (by omega), if_pos (by omega), hpl]
  rfl

/-- C67 is false as well for clusters near the edge: the picture is turned by a degree (`sin` below -1/64) and what leaves
it is dropped.  Here all the charge is at column 100 of row 0. -/
theorem c67_false_rotated (cs sn : ℚ) (hcs : |cs| ≤ 1) (hsn : |sn| ≤ 1) (hneg : sn ≤ -(1 / 64)) (c : ShownCluster)
    (ht : 0 < c.totalTOT) (ht' : c.totalTOT < 2 ^ 24) (hx : c.runningX = 100 * c.totalTOT) (hy : c.runningY = 0) :
    c.place (.fin cs) (.fin sn) = .ok [] := by
  obtain ⟨l, hl⟩ := place_ok c cs sn hcs hsn ht (by omega) (by omega) (by omega) (by omega) (by omega) (by omega) (by omega)
  have hmx : F64.div (F64.mul (F64.ofInt 8) (F64.ofInt c.runningX)) (F64.ofInt c.totalTOT) = .fin 800 := by
    rw [hx, F64.ofInt_exact (n := 8) (by norm_num), F64.ofInt_exact (n := 100 * c.totalTOT)
      (by rw [abs_of_nonneg (by omega)]; omega), F64.ofInt_exact (n := c.totalTOT) (by rw [abs_of_pos ht]; omega)]
    have h1 : F64.mul (.fin ((8 : ℤ) : ℚ)) (.fin ((100 * c.totalTOT : ℤ) : ℚ)) = .fin ((8 * (100 * c.totalTOT) : ℤ) : ℚ) := by
      show F64.ofRat _ = _
      rw [← Int.cast_mul]
      exact F64.ofRat_int (by rw [abs_of_nonneg (by omega)]; omega)
    rw [h1]
    have htq : (0 : ℚ) < c.totalTOT := by exact_mod_cast ht
    show (if (c.totalTOT : ℚ) = 0 then _ else _) = _
    rw [if_neg (ne_of_gt htq)]
    have : ((8 * (100 * c.totalTOT) : ℤ) : ℚ) / c.totalTOT = ((800 : ℤ) : ℚ) := by
      push_cast
      field_simp
      norm_num
    rw [this]
    exact F64.ofRat_int (by norm_num)
  have hmy : F64.div (F64.mul (F64.ofInt 8) (F64.ofInt c.runningY)) (F64.ofInt c.totalTOT) = .fin 0 := by
    rw [hy, F64.ofInt_exact (n := 8) (by norm_num), F64.ofInt_exact (n := 0) (by norm_num),
      F64.ofInt_exact (n := c.totalTOT) (by rw [abs_of_pos ht]; omega)]
    have h1 : F64.mul (.fin ((8 : ℤ) : ℚ)) (.fin ((0 : ℤ) : ℚ)) = .fin ((0 : ℤ) : ℚ) := by
      show F64.ofRat _ = _
      rw [← Int.cast_mul]
      exact F64.ofRat_int (by norm_num)
    rw [h1]
    have htq : (0 : ℚ) < c.totalTOT := by exact_mod_cast ht
    show (if (c.totalTOT : ℚ) = 0 then _ else _) = _
    rw [if_neg (ne_of_gt htq)]
    have : ((0 : ℤ) : ℚ) / c.totalTOT = ((0 : ℤ) : ℚ) := by simp
    rw [this]
    exact F64.ofRat_int (by norm_num)
  obtain ⟨r, hr, br⟩ := ofRat_between (q := 800 * sn) 800 (by norm_num) (by
    rw [abs_mul]
    have h8 : |(800 : ℚ)| = 800 := abs_of_pos (by norm_num)
    rw [h8]
    push_cast
    linarith)
  have hr12 : r ≤ -12 := by
    have h1 : F64.ofRat (800 * sn) = .fin (rndQ (800 * sn)) := by
      apply F64.ofRat_eq_fin
      have := rnd_between (q := 800 * sn) 800 (by norm_num) (by
        rw [abs_mul]
        have h8 : |(800 : ℚ)| = 800 := abs_of_pos (by norm_num)
        rw [h8]
        push_cast
        linarith)
      refine lt_of_le_of_lt this ?_
      have : ((800 : ℤ) : ℚ) < (2 : ℚ) ^ 10 := by norm_num
      refine lt_trans this ?_
      rw [show (1024 : ℤ) = ((1024 : ℕ) : ℤ) from rfl, zpow_natCast]
      exact pow_lt_pow_right₀ (by norm_num) (by norm_num)
    rw [h1] at hr
    injection hr with hr
    rw [← hr]
    have h2 := rndQ_mono (p := 800 * sn) (q := ((-12 : ℤ) : ℚ)) (by push_cast; linarith)
    rw [rndQ_int (by norm_num)] at h2
    push_cast at h2
    exact h2
  have hm0 : F64.mul (.fin 0) (.fin cs) = .fin 0 := by
    show F64.ofRat _ = _
    rw [zero_mul]
    exact_mod_cast F64.ofRat_int (n := 0) (by norm_num)
  have hiy : ∀ iy, (F64.add (F64.mul (.fin 800) (.fin sn)) (F64.mul (.fin 0) (.fin cs))).toI32? = some iy → iy < 0 := by
    intro iy
    have : F64.mul (.fin 800) (.fin sn) = .fin r := hr
    rw [hm0, this]
    intro hh
    have h2 : F64.add (.fin r) (.fin 0) = .fin (rndQ r) := by
      show F64.ofRat (r + 0) = _
      rw [add_zero]
      apply F64.ofRat_fin
      refine le_trans br ?_
      have : ((800 : ℤ) : ℚ) ≤ (2 : ℚ) ^ 10 := by norm_num
      refine le_trans this ?_
      rw [show (1000 : ℤ) = ((1000 : ℕ) : ℤ) from rfl, zpow_natCast]
      exact pow_le_pow_right₀ (by norm_num) (by norm_num)
    rw [h2] at hh
    have h3 := rndQ_mono (p := r) (q := ((-12 : ℤ) : ℚ)) (by push_cast; exact hr12)
    rw [rndQ_int (by norm_num)] at h3
    have h4 : F64.truncQ (rndQ r) < 0 := by
      unfold F64.truncQ
      push_cast at h3
      rw [if_neg (by linarith)]
      have : ⌈rndQ r⌉ ≤ -12 := Int.ceil_le.mpr (by push_cast; exact h3)
      omega
    simp only [F64.toI32?] at hh
    split_ifs at hh
    injection hh with hh
    omega
  unfold ShownCluster.place at hl ⊢
  simp only [hmx, hmy] at hl ⊢
  split at hl
  · rename_i ix iy e1 e2
    have := hiy iy e2
    rw [if_neg (by omega)]
  · cases hl

/-- Two neutrons of the same time, and then a third hit that joins the first of them. -/
example : ∃ s, HitWorker.init.run (.fin 1) (.fin 0)
    [⟨0, 5, 0, 10, 10, 100, 0⟩, ⟨0, 5, 0, 30, 10, 100, 0⟩, ⟨0, 5, 0, 15, 10, 102, 0⟩] = .ok s :=
  c68_safe_partial 1 0 (by norm_num) (by norm_num) _ (by decide) (by
    intro t
    exact le_trans List.countP_le_length (by norm_num))

/-- ... and its clusters. -/
example : ClustersOf [⟨0, 5, 0, 10, 10, 100, 0⟩, ⟨0, 5, 0, 30, 10, 100, 0⟩, ⟨0, 5, 0, 15, 10, 102, 0⟩]
    [[⟨0, 5, 0, 10, 10, 100, 0⟩, ⟨0, 5, 0, 15, 10, 102, 0⟩], [⟨0, 5, 0, 30, 10, 100, 0⟩]] [] := by
  have h1 := ClustersOf.opens [] [] [] ⟨0, 5, 0, 10, 10, 100, 0⟩ ClustersOf.nil (by simp) (by simp)
  have h2 := ClustersOf.opens _ _ _ ⟨0, 5, 0, 30, 10, 100, 0⟩ h1 (by simp [Joins]) (by simp)
  exact ClustersOf.join _ [] _ _ _ ⟨0, 5, 0, 15, 10, 102, 0⟩ h2 (by simp [Joins])

/-- Eleven hits of one neutron: nothing is shown. -/
example : ∃ s, HitWorker.init.run (.fin 1) (.fin 0) (List.replicate 11 brightHit) = .ok s ∧ s.shown = [] := by
  obtain ⟨s, e, -⟩ := run_same (.fin 1) (.fin 0) brightHit (by decide) 10 (by norm_num)
  exact ⟨s, e, (c67_false _ _ _ (by simp) s e).2⟩

/-- A cluster of twelve hits with TOT 10 in column 100 of row 0. -/
example : (⟨true, 0, 100, 100, 0, 0, 120, 12000, 0, 12⟩ : ShownCluster).place (.fin (4095 / 4096)) (.fin (-(143 / 8192))) =
    .ok [] :=
  c67_false_rotated _ _ (by norm_num [abs_le]) (by norm_num [abs_le]) (by norm_num) _ (by norm_num) (by norm_num)
    (by norm_num) rfl

end Verif.Props
