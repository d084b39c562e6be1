import Verif.Spec.DisplayAny
import Verif.Props.DisplayParse
import Verif.Model.DisplayWindow

/-!
# The display program on files of any bytes (C64, C66, C112)
-/

namespace Verif.Props

open Verif Verif.Spec

/-- All eight bytes were written. -/
def Whole (b : CharBuf) : Prop := ∃ l : Bytes, l.length = 8 ∧ b = l.map some

theorem fill_whole (l got : Bytes) (hl : l.length = 8) (hg : got.length ≤ 8) :
    (got ++ l.drop got.length).length = 8 ∧ CharBuf.fill (l.map some) got = (got ++ l.drop got.length).map some := by
  refine ⟨by rw [List.length_append, List.length_drop]; omega, ?_⟩
  rw [CharBuf.fill, List.map_append, List.map_drop]

theorem fill_eight (b : CharBuf) (got : Bytes) (hb : b.length = 8) (hg : got.length = 8) : b.fill got = got.map some := by
  rw [CharBuf.fill, hg, List.drop_eq_nil_of_le (by omega), List.append_nil]

theorem word_whole (l : Bytes) : CharBuf.word (l.map some) = .ok (BitVec.ofNat 64 (leNat l)) := by
  rw [CharBuf.word, mapM_some]

theorem byte_whole (l : Bytes) (k : Nat) (h : k < l.length) : CharBuf.byte (l.map some) k = .ok (l.getD k 0) := by
  rw [CharBuf.byte, List.getD_eq_getElem?_getD, List.getElem?_map, List.getElem?_eq_getElem h,
    List.getD_eq_getElem?_getD, List.getElem?_eq_getElem h]
  rfl

/-- The first three bytes. -/
def startsTPX (l : Bytes) : Prop := l.take 3 = [0x54#8, 0x50#8, 0x58#8]

instance (l : Bytes) : Decidable (startsTPX l) := inferInstanceAs (Decidable (_ = _))

theorem isTPX_whole (l : Bytes) (h : l.length = 8) : CharBuf.isTPX (l.map some) = .ok (decide (startsTPX l)) := by
  match l, h with
  | [a, b, c, d, e, f, g, i], _ =>
    unfold CharBuf.isTPX
    rw [byte_whole _ 0 (by simp), byte_whole _ 1 (by simp), byte_whole _ 2 (by simp)]
    have hs : startsTPX [a, b, c, d, e, f, g, i] ↔ a = 0x54#8 ∧ b = 0x50#8 ∧ c = 0x58#8 := by
      simp [startsTPX]
    simp only [bind, Res.bind, List.getD_cons_zero, List.getD_cons_succ, pure]
    by_cases ha : a = 0x54#8
    · rw [if_neg (not_not.mpr ha)]
      by_cases hb : b = 0x50#8
      · rw [if_neg (not_not.mpr hb)]
        congr 1
        exact decide_eq_decide.mpr ⟨fun hc => hs.2 ⟨ha, hb, hc⟩, fun h => (hs.1 h).2.2⟩
      · rw [if_pos hb, decide_eq_false (fun h => hb (hs.1 h).2.1)]
    · rw [if_pos ha, decide_eq_false (fun h => ha (hs.1 h).1)]

/-- What reading on does, whatever the bytes are: some packets are decoded and no byte is forgotten. -/
structure ReadsOn (s s' : ParseState) : Prop where
  effect : ∃ ps, Effect s s' ps
  bytes : s'.bytesRead + s'.rest.length = s.bytesRead + s.rest.length
  shorter : s'.rest.length ≤ s.rest.length

theorem readsOn_refl (s : ParseState) : ReadsOn s s :=
  ⟨⟨[], rfl, by simp [dated], by simp [dated]⟩, rfl, le_refl _⟩

theorem readsOn_trans {s t u : ParseState} (h : ReadsOn s t) (k : ReadsOn t u) : ReadsOn s u := by
  obtain ⟨p, hp⟩ := h.effect
  obtain ⟨q, hq⟩ := k.effect
  exact ⟨⟨p ++ q, hp.trans hq⟩, by rw [k.bytes, h.bytes], le_trans k.shorter h.shorter⟩

/-- One packet into whole data. -/
theorem displayPackets_round (chip : Int) (n : Nat) (s : ParseState) (l : Bytes)
    (h : s.data.fill (s.rest.take 8) = l.map some) :
    ∃ s', displayPackets chip (n + 1) s = displayPackets chip n s' ∧ ReadsOn s s' ∧ s'.inbytes = s.inbytes ∧
      s'.data = l.map some ∧ s'.rest = s.rest.drop 8 := by
  generalize hs1 : ({ s with data := s.data.fill (s.rest.take 8), rest := s.rest.drop 8,
                             bytesRead := s.bytesRead + (s.rest.take 8).length } : ParseState) = s1
  obtain ⟨s2, e1, e2, e3, e4, e5, e6, e7⟩ := displayPacket_effect chip (BitVec.ofNat 64 (leNat l)) s1
  refine ⟨s2, ?_, ⟨⟨[(chip, BitVec.ofNat 64 (leNat l))], ?_⟩, ?_, ?_⟩, ?_, ?_, ?_⟩
  · rw [displayPackets]
    simp only [hs1]
    rw [h, word_whole]
    simp only [bind, Res.bind, e1]
  · obtain ⟨a1, a2, a3⟩ := e2
    rw [← hs1] at a1 a2 a3
    exact ⟨a1, a2, a3⟩
  · rw [e6, e3, ← hs1]; simp only [List.length_take, List.length_drop]; omega
  · rw [e3, ← hs1]; simp only [List.length_drop]; omega
  · rw [e4, ← hs1]
  · rw [e5, ← hs1, ← h]
  · rw [e3, ← hs1]

theorem displayPackets_whole (chip : Int) (n : Nat) (s : ParseState) (hd : Whole s.data) :
    ∃ s', displayPackets chip n s = .ok s' ∧ ReadsOn s s' ∧ s'.inbytes = s.inbytes ∧ Whole s'.data := by
  induction n generalizing s with
  | zero => exact ⟨s, rfl, readsOn_refl s, rfl, hd⟩
  | succ n ih =>
    obtain ⟨l, hl, hd⟩ := hd
    obtain ⟨f1, f2⟩ := fill_whole l (s.rest.take 8) hl (by rw [List.length_take]; omega)
    rw [← hd] at f2
    obtain ⟨s1, e1, e2, e3, e4, -⟩ := displayPackets_round chip n s _ f2
    obtain ⟨s2, g1, g2, g3, g4⟩ := ih s1 ⟨_, f1, e4⟩
    exact ⟨s2, by rw [e1, g1], readsOn_trans e2 g2, by rw [g3, e3], g4⟩

/-- One round of the outer loop when the eight bytes are known afterwards. -/
theorem displayLoop_round (fuel : Nat) (s : ParseState) (l : Bytes) (hne : s.rest ≠ []) (hl : l.length = 8)
    (h : s.inbytes.fill (s.rest.take 8) = l.map some) :
    ∃ s', displayLoop (fuel + 1) s =
        (if startsTPX l then (displayPackets (l.getD 4 0).toInt (displayWords (l.getD 7 0) (l.getD 6 0)).toNat s').bind
          (displayLoop fuel) else displayLoop fuel s') ∧
      ReadsOn s s' ∧ s'.inbytes = l.map some ∧ s'.data = s.data ∧ s'.rest = s.rest.drop 8 := by
  generalize hs1 : ({ s with inbytes := s.inbytes.fill (s.rest.take 8), rest := s.rest.drop 8,
                             bytesRead := s.bytesRead + (s.rest.take 8).length } : ParseState) = s1
  have hi : s1.inbytes = l.map some := by rw [← hs1, ← h]
  have hr : ∀ k, ReadsOn s { s1 with headers := k } := by
    intro k
    refine ⟨⟨[], ?_, ?_, ?_⟩, ?_, ?_⟩
    · rw [← hs1]; rfl
    · rw [← hs1]; simp [dated]
    · rw [← hs1]; simp [dated]
    · rw [← hs1]; simp only [List.length_take, List.length_drop]; omega
    · rw [← hs1]; simp only [List.length_drop]; omega
  by_cases ht : startsTPX l
  · refine ⟨{ s1 with headers := s1.headers + 1 }, ?_, hr _, hi, by rw [← hs1], by rw [← hs1]⟩
    subst hs1
    rw [displayLoop, if_neg hne]
    simp only [h]
    rw [isTPX_whole l hl, byte_whole _ _ (by omega), byte_whole _ _ (by omega), byte_whole _ _ (by omega),
      decide_eq_true ht, if_pos ht]
    simp only [bind, Res.bind, if_true]
  · refine ⟨{ s1 with headers := s1.headers }, ?_, hr _, hi, by rw [← hs1], by rw [← hs1]⟩
    subst hs1
    rw [displayLoop, if_neg hne]
    simp only [h]
    rw [isTPX_whole l hl, decide_eq_false ht, if_neg ht]
    simp only [bind, Res.bind, Bool.false_eq_true, if_false]

theorem displayLoop_whole (fuel : Nat) (s : ParseState) (hi : Whole s.inbytes) (hd : Whole s.data) (hf : s.rest.length < fuel) :
    ∃ s', displayLoop fuel s = .ok s' ∧ ReadsOn s s' ∧ s'.rest = [] := by
  induction fuel generalizing s with
  | zero => omega
  | succ fuel ih =>
    by_cases hne : s.rest = []
    · exact ⟨s, displayLoop_end _ _ hne, readsOn_refl s, hne⟩
    · have hpos : 0 < s.rest.length := List.length_pos_iff.mpr hne
      obtain ⟨l, hl, hi⟩ := hi
      obtain ⟨f1, f2⟩ := fill_whole l (s.rest.take 8) hl (by rw [List.length_take]; omega)
      rw [← hi] at f2
      obtain ⟨s1, e1, e2, e3, e4, e5⟩ := displayLoop_round fuel s _ hne f1 f2
      have h5 := congrArg List.length e5
      rw [List.length_drop] at h5
      split_ifs at e1
      · obtain ⟨s2, g1, g2, g3, g4⟩ := displayPackets_whole (List.getD (s.rest.take 8 ++ l.drop (s.rest.take 8).length) 4 0).toInt
          (displayWords (List.getD (s.rest.take 8 ++ l.drop (s.rest.take 8).length) 7 0)
            (List.getD (s.rest.take 8 ++ l.drop (s.rest.take 8).length) 6 0)).toNat s1 (by rw [e4]; exact hd)
        obtain ⟨s3, k1, k2, k3⟩ := ih s2 ⟨_, f1, by rw [g3, e3]⟩ g4 (by have := g2.shorter; omega)
        exact ⟨s3, by rw [e1, g1]; exact k1, readsOn_trans e2 (readsOn_trans g2 k2), k3⟩
      · obtain ⟨s3, k1, k2, k3⟩ := ih s1 ⟨_, f1, e3⟩ (by rw [e4]; exact hd) (by omega)
        exact ⟨s3, by rw [e1, k1], readsOn_trans e2 k2, k3⟩

theorem asks_iff (l : Bytes) : AsksForPackets l ↔ startsTPX l ∧ 0 < (displayWords (l.getD 7 0) (l.getD 6 0)).toNat := by
  unfold AsksForPackets startsTPX displayWords
  refine and_congr Iff.rfl ?_
  omega

/-- `NothingFollows` with the group before the first one. -/
def NothingAfter (prev rest : Bytes) : Prop :=
  ∃ k, (∀ j < k, ¬ AsksForPackets (group rest j)) ∧
    ((8 * k + 8 ≤ rest.length ∧ rest.length < 8 * k + 16 ∧ AsksForPackets (group rest k)) ∨
     (8 * k < rest.length ∧ rest.length < 8 * k + 8 ∧
        AsksForPackets (group rest k ++ (if k = 0 then prev else group rest (k - 1)).drop (rest.length - 8 * k))))

theorem group_zero (f : Bytes) : group f 0 = f.take 8 := rfl

theorem group_succ (f : Bytes) (k : Nat) : group f (k + 1) = group (f.drop 8) k := by
  unfold group
  rw [List.drop_drop]
  congr 2
  omega

theorem nothing_asks (prev rest : Bytes) (hl : 8 ≤ rest.length) (h : AsksForPackets (rest.take 8)) :
    NothingAfter prev rest ↔ rest.length < 16 := by
  constructor
  · rintro ⟨k, h1, h2⟩
    have : k = 0 := by
      by_contra hk
      exact h1 0 (by omega) h
    subst this
    omega
  · intro hh
    exact ⟨0, by omega, .inl ⟨by omega, by omega, h⟩⟩

theorem nothing_skip (prev rest : Bytes) (hl : 8 ≤ rest.length) (h : ¬ AsksForPackets (rest.take 8)) :
    NothingAfter prev rest ↔ NothingAfter (rest.take 8) (rest.drop 8) := by
  have hd : (rest.drop 8).length = rest.length - 8 := List.length_drop
  constructor
  · rintro ⟨k, h1, h2⟩
    cases k with
    | zero =>
      rcases h2 with h2 | h2
      · exact absurd h2.2.2 h
      · omega
    | succ k =>
      refine ⟨k, fun j hj => by rw [← group_succ]; exact h1 (j + 1) (by omega), ?_⟩
      rcases h2 with h2 | h2
      · exact .inl ⟨by omega, by omega, by rw [← group_succ]; exact h2.2.2⟩
      · refine .inr ⟨by omega, by omega, ?_⟩
        have := h2.2.2
        rw [if_neg (by omega), Nat.add_sub_cancel, group_succ] at this
        rw [hd, show rest.length - 8 - 8 * k = rest.length - 8 * (k + 1) by omega]
        cases k with
        | zero => rw [if_pos rfl]; exact this
        | succ k => rw [if_neg (by omega), Nat.add_sub_cancel, ← group_succ rest k]; exact this
  · rintro ⟨k, h1, h2⟩
    refine ⟨k + 1, ?_, ?_⟩
    · intro j hj
      cases j with
      | zero => exact h
      | succ j => rw [group_succ]; exact h1 j (by omega)
    · rcases h2 with h2 | h2
      · exact .inl ⟨by omega, by omega, by rw [group_succ]; exact h2.2.2⟩
      · refine .inr ⟨by omega, by omega, ?_⟩
        have := h2.2.2
        rw [hd, show rest.length - 8 - 8 * k = rest.length - 8 * (k + 1) by omega] at this
        rw [if_neg (by omega), Nat.add_sub_cancel, group_succ]
        cases k with
        | zero => rw [if_pos rfl] at this; exact this
        | succ k => rw [if_neg (by omega), Nat.add_sub_cancel, ← group_succ rest k] at this; exact this

/-- Reading a packet when fewer than eight bytes are left and none was read before. -/
theorem displayPackets_unset (chip : Int) (n : Nat) (s : ParseState) (hd : s.data = List.replicate 8 none)
    (hr : s.rest.length < 8) : displayPackets chip (n + 1) s = .ub .indeterminate := by
  have : CharBuf.word (s.data.fill (s.rest.take 8)) = .ub .indeterminate := by
    rw [hd, CharBuf.fill, List.drop_replicate, List.take_of_length_le (by omega), CharBuf.word]
    have : ∀ (l : Bytes) (k : Nat), 0 < k → (l.map some ++ List.replicate k (none : Option Byte)).mapM id = none := by
      intro l k hk
      induction l with
      | nil =>
        obtain ⟨k, rfl⟩ := Nat.exists_eq_add_of_le' hk
        rfl
      | cons a l ih =>
        rw [List.map_cons, List.cons_append, List.mapM_cons, ih]
        rfl
    rw [this _ _ (by omega)]
  rw [displayPackets]
  simp only [this, bind, Res.bind]

/-- The loop before the first packet was read. -/
theorem displayLoop_unset (fuel : Nat) (prev : Bytes) (s : ParseState) (hi : s.inbytes.length = 8)
    (hp : s.inbytes = prev.map some ∨ 8 ≤ s.rest.length) (hd : s.data = List.replicate 8 none) (hf : s.rest.length < fuel) :
    (NothingAfter prev s.rest → displayLoop fuel s = .ub .indeterminate) ∧
    (¬ NothingAfter prev s.rest → ∃ s', displayLoop fuel s = .ok s' ∧ ReadsOn s s' ∧ s'.rest = []) := by
  induction fuel generalizing s prev with
  | zero => omega
  | succ fuel ih =>
    by_cases hne : s.rest = []
    · refine ⟨?_, fun _ => ⟨s, displayLoop_end _ _ hne, readsOn_refl s, hne⟩⟩
      rintro ⟨k, -, h⟩
      rw [hne] at h
      simp only [List.length_nil] at h
      omega
    have hpos : 0 < s.rest.length := List.length_pos_iff.mpr hne
    by_cases h8 : 8 ≤ s.rest.length
    · have hl : (s.rest.take 8).length = 8 := by rw [List.length_take]; omega
      obtain ⟨s1, e1, e2, e3, e4, e5⟩ := displayLoop_round fuel s _ hne hl (fill_eight _ _ hi hl)
      have h5 := congrArg List.length e5
      rw [List.length_drop] at h5
      have hi1 : s1.inbytes.length = 8 := by rw [e3, List.length_map, hl]
      by_cases ha : AsksForPackets (s.rest.take 8)
      · rw [nothing_asks prev _ h8 ha]
        obtain ⟨a1, a2⟩ := (asks_iff _).1 ha
        obtain ⟨n, hn⟩ := Nat.exists_eq_add_of_le' a2
        rw [e1, if_pos a1, hn]
        constructor
        · intro h16
          rw [displayPackets_unset _ n s1 (by rw [e4, hd]) (by omega)]
          rfl
        · intro h16
          have hl2 : (s1.rest.take 8).length = 8 := by rw [List.length_take]; omega
          obtain ⟨s2, f1, f2, f3, f4, f5⟩ := displayPackets_round ((s.rest.take 8).getD 4 0).toInt n s1 _
            (fill_eight _ _ (by rw [e4, hd]; simp) hl2)
          obtain ⟨s3, g1, g2, g3, g4⟩ := displayPackets_whole ((s.rest.take 8).getD 4 0).toInt n s2 ⟨_, hl2, f4⟩
          obtain ⟨s4, k1, k2, k3⟩ := displayLoop_whole fuel s3 ⟨_, hl, by rw [g3, f3, e3]⟩ g4
            (by have := g2.shorter; have := f2.shorter; omega)
          exact ⟨s4, by rw [f1, g1]; exact k1, readsOn_trans e2 (readsOn_trans f2 (readsOn_trans g2 k2)), k3⟩
      · rw [nothing_skip prev _ h8 ha, ← e5]
        have e1' : displayLoop (fuel + 1) s = displayLoop fuel s1 := by
          rw [e1]
          by_cases ht : startsTPX (s.rest.take 8)
          · have : (displayWords ((s.rest.take 8).getD 7 0) ((s.rest.take 8).getD 6 0)).toNat = 0 := by
              by_contra hn
              exact ha ((asks_iff _).2 ⟨ht, by omega⟩)
            rw [if_pos ht, this]
            rfl
          · rw [if_neg ht]
        obtain ⟨i1, i2⟩ := ih (s.rest.take 8) s1 hi1 (.inl e3) (by rw [e4, hd]) (by omega)
        rw [e1']
        refine ⟨i1, fun h => ?_⟩
        obtain ⟨s2, g1, g2, g3⟩ := i2 h
        exact ⟨s2, g1, readsOn_trans e2 g2, g3⟩
    · have hp : s.inbytes = prev.map some := by
        rcases hp with hp | hp
        · exact hp
        · omega
      have hpl : prev.length = 8 := by rw [hp, List.length_map] at hi; exact hi
      have ht8 : s.rest.take 8 = s.rest := List.take_of_length_le (by omega)
      obtain ⟨f1, f2⟩ := fill_whole prev s.rest hpl (by omega)
      obtain ⟨s1, e1, e2, e3, e4, e5⟩ := displayLoop_round fuel s _ hne f1 (by rw [ht8, hp]; exact f2)
      have h5 : s1.rest = [] := by rw [e5, List.drop_eq_nil_of_le (by omega)]
      have hiff : NothingAfter prev s.rest ↔ AsksForPackets (s.rest ++ prev.drop s.rest.length) := by
        constructor
        · rintro ⟨k, -, h⟩
          rcases h with h | h
          · omega
          · have hk : k = 0 := by omega
            subst hk
            have := h.2.2
            rw [if_pos rfl, group_zero, ht8, Nat.mul_zero, Nat.sub_zero] at this
            exact this
        · intro h
          refine ⟨0, by omega, .inr ⟨by omega, by omega, ?_⟩⟩
          rw [if_pos rfl, group_zero, ht8, Nat.mul_zero, Nat.sub_zero]
          exact h
      rw [hiff]
      by_cases ha : AsksForPackets (s.rest ++ prev.drop s.rest.length)
      · obtain ⟨a1, a2⟩ := (asks_iff _).1 ha
        obtain ⟨n, hn⟩ := Nat.exists_eq_add_of_le' a2
        rw [e1, if_pos a1, hn]
        refine ⟨fun _ => ?_, fun h => absurd ha h⟩
        rw [displayPackets_unset _ n s1 (by rw [e4, hd]) (by rw [h5]; simp)]
        rfl
      · refine ⟨fun h => absurd h ha, fun _ => ⟨s1, ?_, e2, h5⟩⟩
        rw [e1]
        by_cases ht : startsTPX (s.rest ++ prev.drop s.rest.length)
        · have : (displayWords ((s.rest ++ prev.drop s.rest.length).getD 7 0)
              ((s.rest ++ prev.drop s.rest.length).getD 6 0)).toNat = 0 := by
            by_contra hn
            exact ha ((asks_iff _).2 ⟨ht, by omega⟩)
          rw [if_pos ht, this]
          exact displayLoop_end _ _ h5
        · rw [if_neg ht]
          exact displayLoop_end _ _ h5

/-! ## Files of any bytes -/

theorem short_undefined (file : Bytes) (h : file.length < 8) (hne : file ≠ []) :
    (ShortHeader file → fileToHits file = .ub .indeterminate) ∧
    (¬ ShortHeader file → ∃ s, fileToHits file = .ok s ∧ s.hits = [] ∧ s.tofs = [] ∧ s.bytesRead = file.length) := by
  have key : fileToHits file = (do
      if (← CharBuf.isTPX (CharBuf.fill (List.replicate 8 none) file)) then do
        let _ ← CharBuf.byte (CharBuf.fill (List.replicate 8 none) file) 7
        .ub .indeterminate
      else .ok ⟨[], CharBuf.fill (List.replicate 8 none) file, List.replicate 8 none, 0#64, [], [], file.length, 0, 0, 0⟩) := by
    unfold fileToHits
    rw [displayLoop, if_neg hne]
    simp only [List.take_of_length_le (Nat.le_of_lt h), List.drop_eq_nil_of_le (Nat.le_of_lt h), Nat.zero_add]
    have h7 : CharBuf.byte (CharBuf.fill (List.replicate 8 none) file) 7 = .ub .indeterminate := by
      rw [CharBuf.fill, List.drop_replicate, CharBuf.byte, List.getD_eq_getElem?_getD,
        List.getElem?_append_right (by rw [List.length_map]; omega), List.getElem?_replicate]
      split_ifs <;> rfl
    rw [h7]
    cases CharBuf.isTPX (CharBuf.fill (List.replicate 8 none) file) with
    | throws m => rfl
    | ub u => rfl
    | ok b =>
      cases b with
      | true => rfl
      | false =>
        simp only [bind, Res.bind, Bool.false_eq_true, if_false]
        exact displayLoop_end _ _ rfl
  rw [key]
  have h7 : CharBuf.byte (CharBuf.fill (List.replicate 8 none) file) 7 = .ub .indeterminate := by
    rw [CharBuf.fill, List.drop_replicate, CharBuf.byte, List.getD_eq_getElem?_getD,
      List.getElem?_append_right (by rw [List.length_map]; omega), List.getElem?_replicate]
    split_ifs <;> rfl
  rw [h7]
  unfold ShortHeader CharBuf.isTPX
  match file, hne with
  | [a], _ =>
    simp only [CharBuf.fill, CharBuf.byte, List.map_cons, List.cons_append, List.getD_cons_zero, List.getD_cons_succ, bind,
      Res.bind, List.map_nil, List.length_cons, List.length_nil, List.nil_append, List.drop_replicate, List.take]
    by_cases ha : a = 0x54#8
    · simp [ha, List.replicate]
    · simp [ha, pure]
  | [a, b], _ =>
    by_cases ha : a = 0x54#8
    · by_cases hb : b = 0x50#8
      · simp [ha, hb, CharBuf.fill, CharBuf.byte, bind, Res.bind, List.replicate]
      · simp [ha, hb, CharBuf.fill, CharBuf.byte, bind, Res.bind, pure]
    · simp [ha, CharBuf.fill, CharBuf.byte, bind, Res.bind, pure]
  | a :: b :: c :: l, _ =>
    have e1 : (0x54#8 :: 0x50#8 :: 0x58#8 :: ([] : Bytes)).take (a :: b :: c :: l).length = [0x54#8, 0x50#8, 0x58#8] :=
      List.take_of_length_le (by simp)
    rw [e1]
    by_cases ha : a = 0x54#8
    · by_cases hb : b = 0x50#8
      · by_cases hc : c = 0x58#8
        · simp only [List.length_cons] at h
          simp [ha, hb, hc, CharBuf.fill, CharBuf.byte, bind, Res.bind, pure, h]
        · simp [ha, hb, hc, CharBuf.fill, CharBuf.byte, bind, Res.bind, pure]
      · simp [ha, hb, CharBuf.fill, CharBuf.byte, bind, Res.bind, pure]
    · simp [ha, CharBuf.fill, CharBuf.byte, bind, Res.bind, pure]

theorem nothingFollows_iff (file : Bytes) (h : 8 ≤ file.length) : NothingFollows file ↔ NothingAfter [] file := by
  unfold NothingFollows NothingAfter
  refine exists_congr fun k => and_congr Iff.rfl (or_congr Iff.rfl ?_)
  constructor
  · rintro ⟨h1, h2, h3, h4⟩
    rw [if_neg (by omega)]
    exact ⟨h2, h3, h4⟩
  · rintro ⟨h2, h3, h4⟩
    have hk : 1 ≤ k := by omega
    rw [if_neg (by omega)] at h4
    exact ⟨hk, h2, h3, h4⟩

/-- C64, files of any bytes: `filetohits` is undefined if and only if the file is shorter than eight bytes and starts like a
header, or the first group of eight bytes that asks for packets is followed by fewer than eight bytes.  Otherwise it ends, has
read every byte of the file once, and every hit it shows lies in the picture. -/
theorem c64_undefined_iff (file : Bytes) :
    ((∃ u, fileToHits file = .ub u) ↔ ShortHeader file ∨ NothingFollows file) ∧
    (¬ (ShortHeader file ∨ NothingFollows file) → ∃ s, fileToHits file = .ok s ∧ s.bytesRead = file.length ∧
      (∀ h ∈ s.hits, ∃ chip, InPicture chip h.x h.y) ∧ ∀ i ∈ s.tofs, 0 ≤ i ∧ i < 170000) := by
  suffices key : (ShortHeader file ∨ NothingFollows file → fileToHits file = .ub .indeterminate) ∧
      (¬ (ShortHeader file ∨ NothingFollows file) → ∃ s, fileToHits file = .ok s ∧ s.bytesRead = file.length ∧
      (∀ h ∈ s.hits, ∃ chip, InPicture chip h.x h.y) ∧ ∀ i ∈ s.tofs, 0 ≤ i ∧ i < 170000) by
    refine ⟨⟨fun ⟨u, hu⟩ => ?_, fun h => ⟨_, key.1 h⟩⟩, key.2⟩
    by_contra hn
    obtain ⟨s, hs, -⟩ := key.2 hn
    rw [hs] at hu
    cases hu
  by_cases hne : file = []
  · subst hne
    have h1 : ¬ (ShortHeader [] ∨ NothingFollows []) := by
      rintro (h | ⟨k, -, h⟩)
      · exact h.2.1 rfl
      · simp only [List.length_nil] at h
        omega
    refine ⟨fun h => absurd h h1, fun _ => ⟨_, displayLoop_end _ _ rfl, rfl, ?_, ?_⟩⟩
    · intro h hh; cases hh
    · intro h hh; cases hh
  by_cases h8 : file.length < 8
  · have hn : ¬ NothingFollows file := by
      rintro ⟨k, -, h⟩
      omega
    obtain ⟨k1, k2⟩ := short_undefined file h8 hne
    refine ⟨fun h => k1 (h.resolve_right hn), fun h => ?_⟩
    obtain ⟨s, e1, e2, e3, e4⟩ := k2 (fun h' => h (.inl h'))
    refine ⟨s, e1, e4, ?_, ?_⟩
    · rw [e2]; intro h hh; cases hh
    · rw [e3]; intro h hh; cases hh
  · have hs : ¬ ShortHeader file := fun h => h8 h.1
    obtain ⟨k1, k2⟩ := displayLoop_unset (file.length + 1) []
      ⟨file, List.replicate 8 none, List.replicate 8 none, 0#64, [], [], 0, 0, 0, 0⟩ (by simp) (.inr (by simp only; omega)) rfl
      (by simp only; omega)
    rw [← nothingFollows_iff file (by omega)] at k1 k2
    refine ⟨fun h => k1 (h.resolve_left hs), fun h => ?_⟩
    obtain ⟨s, e1, e2, e3⟩ := k2 (fun h' => h (.inr h'))
    obtain ⟨ps, e4⟩ := e2.effect
    refine ⟨s, e1, ?_, ?_, ?_⟩
    · have := e2.bytes
      rw [e3] at this
      simpa using this
    · rw [e4.hits]
      intro h hh
      simp only [List.nil_append, List.mem_map] at hh
      obtain ⟨d, -, rfl⟩ := hh
      exact ⟨_, c65_quadrant _ _ _⟩
    · rw [e4.tofs]
      intro i hi
      simp only [List.nil_append, List.mem_flatMap] at hi
      obtain ⟨d, -, hi⟩ := hi
      unfold countedAt at hi
      split_ifs at hi with hcond
      · rw [List.mem_singleton] at hi
        omega
      · simp at hi

/-- A header that asks for a packet, with the start of one behind it. -/
example : NothingFollows ([0x54#8, 0x50#8, 0x58#8, 0x33#8, 0#8, 0#8, 8#8, 0#8] ++ [0x31#8]) :=
  ⟨0, by omega, .inl (by decide)⟩

/-- A word that is no header, and three bytes at the end that make one of it. -/
example : NothingFollows ([0#8, 0#8, 0#8, 0x33#8, 0#8, 0#8, 8#8, 0#8] ++ [0x54#8, 0x50#8, 0x58#8]) :=
  ⟨1, by decide, .inr (by decide)⟩

example : ShortHeader [0x54#8, 0x50#8] ∧ ¬ ShortHeader [0x54#8, 0x51#8] := by decide

/-- C112: exactly the files of which the button to read makes undefined behaviour. -/
theorem c112_read_iff (env : SaveEnv) (cos sin : F64) (s : DisplayWindow) (hs : s.timer = false) (file : Bytes)
    (junk : Nat → DisplayHit) :
    (∃ u, s.step env cos sin (.read (some (some file)) junk) = .ub u) ↔ ShortHeader file ∨ NothingFollows file := by
  rw [← (c64_undefined_iff file).1]
  show (∃ u, s.read (some (some file)) junk = .ub u) ↔ _
  unfold DisplayWindow.read
  rw [hs]
  simp only [Bool.false_eq_true, if_false]
  cases fileToHits file with
  | ok p => simp [Res.bind]
  | throws m => simp [Res.bind]
  | ub u => simp [Res.bind]

end Verif.Props
