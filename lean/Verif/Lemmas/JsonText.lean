import Verif.Model.JsonText
import Verif.Spec.JsonText
import Mathlib.Tactic.IntervalCases
import Mathlib.Tactic.NormNum

/-!
# The reader of JSON texts: tokens
-/

namespace Verif

open Verif.Spec

/-! ## White space -/

theorem jsonSpace_iff (c : Char) : jsonSpace c = true ↔ c = ' ' ∨ c = '\t' ∨ c = '\n' ∨ c = '\r' := by
  simp [jsonSpace, or_assoc]

theorem skipSpace_append {w : List Char} (h : Space w) (l : List Char) : skipSpace (w ++ l) = skipSpace l := by
  induction w with
  | nil => rfl
  | cons c w ih =>
    have hc : jsonSpace c = true := (jsonSpace_iff c).2 (h c (by simp))
    have := ih (fun d hd => h d (by simp [hd]))
    simp only [skipSpace, List.cons_append, List.dropWhile_cons, hc, if_true]
    exact this

theorem skipSpace_cons {c : Char} (h : jsonSpace c = false) (l : List Char) : skipSpace (c :: l) = c :: l := by
  simp [skipSpace, h]

theorem skipSpace_split (l : List Char) : ∃ w, Space w ∧ l = w ++ skipSpace l :=
  ⟨l.takeWhile jsonSpace, fun c hc => (jsonSpace_iff c).1 (by
      exact List.all_eq_true.1 (List.all_takeWhile) c hc), (List.takeWhile_append_dropWhile).symm⟩

theorem skipSpace_head {l : List Char} {c : Char} {r : List Char} (h : skipSpace l = c :: r) : jsonSpace c = false := by
  have := List.head?_dropWhile_not jsonSpace l
  unfold skipSpace at h
  rw [h] at this
  simpa using this

theorem skipSpace_length (l : List Char) : (skipSpace l).length ≤ l.length := by
  unfold skipSpace; exact (List.dropWhile_sublist _).length_le

/-! ## Strings -/

theorem toNat_ofNat {n : Nat} (h : n < 0xd800) : (Char.ofNat n).toNat = n := by
  have hv : n.isValidChar := Or.inl h
  rw [Char.ofNat, dif_pos hv]
  rfl

instance (c : Char) (n : Nat) : Decidable (HexDigit c n) := by unfold HexDigit; infer_instance

theorem hexVal_iff (c : Char) (n : Nat) : hexVal c = some n ↔ HexDigit c n := by
  constructor
  · intro h
    unfold hexVal at h
    have hc : c = Char.ofNat c.toNat := (Char.ofNat_toNat c).symm
    split_ifs at h with h1 h2 h3
    · have e1 : 48 ≤ c.toNat := h1.1
      have e2 : c.toNat ≤ 57 := h1.2
      generalize c.toNat = k at *
      interval_cases k <;> (injection h with h; subst h; rw [hc]; decide)
    · have e1 : 65 ≤ c.toNat := h2.1
      have e2 : c.toNat ≤ 70 := h2.2
      generalize c.toNat = k at *
      interval_cases k <;> (injection h with h; subst h; rw [hc]; decide)
    · have e1 : 97 ≤ c.toNat := h3.1
      have e2 : c.toNat ≤ 102 := h3.2
      generalize c.toNat = k at *
      interval_cases k <;> (injection h with h; subst h; rw [hc]; decide)
  · rintro ⟨hn, h⟩
    interval_cases n <;> (rcases h with h | h <;> (rw [h]; decide))

theorem getCodepoint_hex4 {h : List Char} {n : Nat} (hh : Hex4 h n) (rest : List Char) :
    getCodepoint (h ++ rest) = some (n, rest) := by
  obtain ⟨a, b, c, d, x, y, z, w, rfl, ha, hb, hc, hd, rfl⟩ := hh
  simp only [List.cons_append, List.nil_append, getCodepoint, (hexVal_iff _ _).2 ha, (hexVal_iff _ _).2 hb,
    (hexVal_iff _ _).2 hc, (hexVal_iff _ _).2 hd, Option.bind_some, Nat.shiftLeft_eq]
  congr 2; omega

theorem hex4_of_getCodepoint {l r : List Char} {n : Nat} (h : getCodepoint l = some (n, r)) :
    ∃ g, l = g ++ r ∧ Hex4 g n ∧ n < 65536 := by
  unfold getCodepoint at h
  split at h
  · rename_i a b c d l
    simp only [Option.bind_eq_some_iff, Option.some.injEq, Prod.mk.injEq] at h
    obtain ⟨x, hx, y, hy, z, hz, w, hw, e, rfl⟩ := h
    have hx := (hexVal_iff _ _).1 hx
    have hy := (hexVal_iff _ _).1 hy
    have hz := (hexVal_iff _ _).1 hz
    have hw := (hexVal_iff _ _).1 hw
    have l1 := hx.1; have l2 := hy.1; have l3 := hz.1; have l4 := hw.1
    simp only [Nat.shiftLeft_eq] at e
    refine ⟨[a, b, c, d], rfl, ⟨a, b, c, d, x, y, z, w, rfl, hx, hy, hz, hw, by omega⟩, by omega⟩
  · cases h

theorem lor_add (a b k : Nat) (h : b < 2 ^ k) : (2 ^ k * a) ||| b = 2 ^ k * a + b :=
  (Nat.two_pow_add_eq_or_of_lt h a).symm

theorem and63 (n : Nat) : n &&& 0x3f = n % 64 := Nat.and_two_pow_sub_one_eq_mod n 6

theorem addCodepoint_eq (n : Nat) (h : n ≤ 0x10ffff) : addCodepoint n = bytes (utf8 n) := by
  have c6 : ∀ m, m < 64 → 0x80 ||| m = 0x80 + m := fun m hm => lor_add 2 m 6 hm
  unfold addCodepoint utf8 bytes
  simp only [and63, Nat.shiftRight_eq_div_pow]
  split_ifs <;> first | omega | skip
  · rfl
  · rw [c6 _ (by omega), show (0xc0 : Nat) ||| n / 2 ^ 6 = 0xc0 + n / 64 from lor_add 6 (n / 64) 5 (by omega)]; rfl
  · rw [c6 _ (by omega), c6 _ (by omega),
      show (0xe0 : Nat) ||| n / 2 ^ 12 = 0xe0 + n / 4096 from lor_add 14 (n / 4096) 4 (by omega)]; rfl
  · rw [c6 _ (by omega), c6 _ (by omega), c6 _ (by omega),
      show (0xf0 : Nat) ||| n / 2 ^ 18 = 0xf0 + n / 262144 from lor_add 30 (n / 262144) 3 (by omega)]; rfl

theorem simpleEscape_iff (c d : Char) : simpleEscape c = some d ↔ (c, d) ∈ escapes := by
  unfold simpleEscape escapes
  constructor
  · intro h
    split_ifs at h with h1 h2 h3 h4 h5 h6 h7 h8 <;> (injection h with h; subst h; simp_all)
  · intro h
    simp only [List.mem_cons, Prod.mk.injEq, List.not_mem_nil, or_false] at h
    rcases h with ⟨rfl, rfl⟩ | ⟨rfl, rfl⟩ | ⟨rfl, rfl⟩ | ⟨rfl, rfl⟩ | ⟨rfl, rfl⟩ | ⟨rfl, rfl⟩ | ⟨rfl, rfl⟩ | ⟨rfl, rfl⟩ <;>
      rfl

/-- A first byte and the bytes after it that the lexer takes. -/
theorem nextBytes_nil (l : List Char) : nextBytes [] l = some ([], l) := by cases l <;> rfl

theorem lexChar_plain {n : Nat} (hs : Scalar n) (h1 : 0x20 ≤ n) (h2 : n ≠ 0x5c) (rest : List Char) :
    lexChar (bytes (utf8 n) ++ rest) = some (bytes (utf8 n), rest) := by
  have hne : ∀ m, m < 0xd800 → m ≠ 0x5c → Char.ofNat m ≠ '\\' := by
    intro m hm hm2 e
    have := congrArg Char.toNat e
    rw [toNat_ofNat hm] at this
    exact hm2 this
  unfold Scalar at hs
  unfold utf8
  split_ifs with g1 g2 g3
  · simp only [bytes, List.map_cons, List.map_nil, List.cons_append, List.nil_append, lexChar]
    rw [if_neg (hne _ (by omega) h2), toNat_ofNat (by omega)]
    unfold followers
    rw [if_neg (by omega), if_pos (by omega)]
    rfl
  · simp only [bytes, List.map_cons, List.map_nil, List.cons_append, List.nil_append, lexChar]
    rw [if_neg (hne _ (by omega) (by omega)), toNat_ofNat (by omega)]
    unfold followers
    rw [if_neg (by omega), if_neg (by omega), if_neg (by omega), if_pos (by omega)]
    simp only [Option.bind_some, nextBytes]
    rw [toNat_ofNat (by omega), if_pos (by omega)]
    rfl
  · simp only [bytes, List.map_cons, List.map_nil, List.cons_append, List.nil_append, lexChar]
    rw [if_neg (hne _ (by omega) (by omega)), toNat_ofNat (by omega)]
    unfold followers
    rw [if_neg (by omega), if_neg (by omega), if_neg (by omega), if_neg (by omega)]
    split_ifs <;> first
      | omega
      | (simp only [Option.bind_some, nextBytes]
         rw [toNat_ofNat (by omega), toNat_ofNat (by omega), if_pos (by omega), if_pos (by omega)]
         rfl)
  · simp only [bytes, List.map_cons, List.map_nil, List.cons_append, List.nil_append, lexChar]
    rw [if_neg (hne _ (by omega) (by omega)), toNat_ofNat (by omega)]
    unfold followers
    rw [if_neg (by omega), if_neg (by omega), if_neg (by omega), if_neg (by omega), if_neg (by omega), if_neg (by omega),
      if_neg (by omega)]
    split_ifs <;> first
      | omega
      | (simp only [Option.bind_some, nextBytes]
         rw [toNat_ofNat (by omega), toNat_ofNat (by omega), toNat_ofNat (by omega), if_pos (by omega), if_pos (by omega),
           if_pos (by omega)]
         rfl)

theorem lexChar_element {t s : List Char} (h : Element t s) (rest : List Char) : lexChar (t ++ rest) = some (s, rest) := by
  cases h with
  | plain hs h1 _ h2 => exact lexChar_plain hs h1 h2 rest
  | @escape c d h =>
    have hu : c ≠ 'u' := by
      rintro rfl
      simp [escapes] at h
    simp only [List.cons_append, List.nil_append, lexChar, if_true, lexEscape]
    rw [if_neg hu, (simpleEscape_iff c d).2 h]
    rfl
  | @unicode g n hg hs =>
    unfold Scalar at hs
    simp only [List.cons_append, lexChar, if_true, lexEscape, lexUnicode]
    rw [getCodepoint_hex4 hg]
    simp only [Option.bind_some]
    rw [if_neg (by omega), if_neg (by omega), addCodepoint_eq _ (by omega)]
  | @pair g k m n hg hk hm hn =>
    simp only [List.cons_append, List.append_assoc, lexChar, if_true, lexEscape, lexUnicode]
    rw [getCodepoint_hex4 hg]
    simp only [Option.bind_some]
    rw [if_pos (by omega), getCodepoint_hex4 hk]
    simp only [Option.bind_some, Nat.shiftLeft_eq]
    rw [if_pos (by omega), show (0xd800 + m) * 2 ^ 10 + (0xdc00 + n) - 0x35fdc00 = 0x10000 + m * 1024 + n by omega,
      addCodepoint_eq _ (by omega)]

theorem element_ne {t s : List Char} (h : Element t s) : ∃ c r, t = c :: r ∧ c ≠ '"' := by
  cases h with
  | @plain n hs h1 h2 h3 =>
    have hne : ∀ m, m < 0xd800 → m ≠ 0x22 → Char.ofNat m ≠ '"' := by
      intro m hm hm2 e
      have := congrArg Char.toNat e
      rw [toNat_ofNat hm] at this
      exact hm2 this
    unfold Scalar at hs
    unfold utf8
    split_ifs
    · exact ⟨_, _, rfl, hne _ (by omega) (by omega)⟩
    · exact ⟨_, _, rfl, hne _ (by omega) (by omega)⟩
    · exact ⟨_, _, rfl, hne _ (by omega) (by omega)⟩
    · exact ⟨_, _, rfl, hne _ (by omega) (by omega)⟩
  | escape => exact ⟨_, _, rfl, by decide⟩
  | unicode => exact ⟨_, _, rfl, by decide⟩
  | pair => exact ⟨_, _, rfl, by decide⟩

theorem ofNat_eq {c : Char} {n : Nat} (h : c.toNat = n) : c = Char.ofNat n := by rw [← h, Char.ofNat_toNat]

theorem followers_cases {n : Nat} {rs : List (Nat × Nat)} (h : followers n = some rs) :
    (0x20 ≤ n ∧ n ≤ 0x7f ∧ rs = []) ∨ (0xc2 ≤ n ∧ n ≤ 0xdf ∧ rs = [(0x80, 0xbf)]) ∨
    (0xe0 ≤ n ∧ n ≤ 0xef ∧ ∃ lo hi, rs = [(lo, hi), (0x80, 0xbf)] ∧ 0x80 ≤ lo ∧ hi ≤ 0xbf ∧ (n = 0xe0 → 0xa0 ≤ lo) ∧
      (n = 0xed → hi ≤ 0x9f)) ∨
    (0xf0 ≤ n ∧ n ≤ 0xf4 ∧ ∃ lo hi, rs = [(lo, hi), (0x80, 0xbf), (0x80, 0xbf)] ∧ 0x80 ≤ lo ∧ hi ≤ 0xbf ∧
      (n = 0xf0 → 0x90 ≤ lo) ∧ (n = 0xf4 → hi ≤ 0x8f)) := by
  unfold followers at h
  by_cases g1 : n < 0x20
  · rw [if_pos g1] at h; cases h
  rw [if_neg g1] at h
  by_cases g2 : n ≤ 0x7f
  · rw [if_pos g2] at h; injection h with h
    exact Or.inl ⟨by omega, g2, h.symm⟩
  rw [if_neg g2] at h
  by_cases g3 : n < 0xc2
  · rw [if_pos g3] at h; cases h
  rw [if_neg g3] at h
  by_cases g4 : n ≤ 0xdf
  · rw [if_pos g4] at h; injection h with h
    exact Or.inr (Or.inl ⟨by omega, g4, h.symm⟩)
  rw [if_neg g4] at h
  refine Or.inr (Or.inr ?_)
  by_cases g5 : n = 0xe0
  · rw [if_pos g5] at h; injection h with h
    exact Or.inl ⟨by omega, by omega, _, _, h.symm, by omega, by omega, by omega, by omega⟩
  rw [if_neg g5] at h
  by_cases g6 : n = 0xed
  · rw [if_pos g6] at h; injection h with h
    exact Or.inl ⟨by omega, by omega, _, _, h.symm, by omega, by omega, by omega, by omega⟩
  rw [if_neg g6] at h
  by_cases g7 : n ≤ 0xef
  · rw [if_pos g7] at h; injection h with h
    exact Or.inl ⟨by omega, by omega, _, _, h.symm, by omega, by omega, by omega, by omega⟩
  rw [if_neg g7] at h
  refine Or.inr ?_
  by_cases g8 : n = 0xf0
  · rw [if_pos g8] at h; injection h with h
    exact ⟨by omega, by omega, _, _, h.symm, by omega, by omega, by omega, by omega⟩
  rw [if_neg g8] at h
  by_cases g9 : n ≤ 0xf3
  · rw [if_pos g9] at h; injection h with h
    exact ⟨by omega, by omega, _, _, h.symm, by omega, by omega, by omega, by omega⟩
  rw [if_neg g9] at h
  by_cases g10 : n = 0xf4
  · rw [if_pos g10] at h; injection h with h
    exact ⟨by omega, by omega, _, _, h.symm, by omega, by omega, by omega, by omega⟩
  rw [if_neg g10] at h; cases h

theorem element_of_lexChar {c : Char} {l s r : List Char} (hq : c ≠ '"') (h : lexChar (c :: l) = some (s, r)) :
    ∃ t, c :: l = t ++ r ∧ Element t s := by
  simp only [lexChar] at h
  split_ifs at h with h1
  · subst h1
    cases l with
    | nil => cases h
    | cons d l =>
      simp only [lexEscape] at h
      split_ifs at h with h2
      · subst h2
        unfold lexUnicode at h
        simp only [Option.bind_eq_some_iff] at h
        obtain ⟨⟨n, l1⟩, hg0, h⟩ := h
        obtain ⟨g, rfl, hg, hn⟩ := hex4_of_getCodepoint hg0
        simp only at h
        split_ifs at h with h3 h4
        · split at h
          · rename_i l2
            simp only [Option.bind_eq_some_iff] at h
            obtain ⟨⟨m, l3⟩, hk0, h⟩ := h
            obtain ⟨k, rfl, hk, hm⟩ := hex4_of_getCodepoint hk0
            simp only at h
            split_ifs at h with h5
            simp only [Option.some.injEq, Prod.mk.injEq, Nat.shiftLeft_eq] at h
            obtain ⟨rfl, rfl⟩ := h
            refine ⟨'\\' :: 'u' :: g ++ '\\' :: 'u' :: k, by simp, ?_⟩
            rw [addCodepoint_eq _ (by omega),
              show n * 2 ^ 10 + m - 0x35fdc00 = 0x10000 + (n - 0xd800) * 1024 + (m - 0xdc00) by omega]
            refine Element.pair ?_ ?_ (by omega) (by omega)
            · rw [show 0xd800 + (n - 0xd800) = n by omega]; exact hg
            · rw [show 0xdc00 + (m - 0xdc00) = m by omega]; exact hk
          · cases h
        · simp only [Option.some.injEq, Prod.mk.injEq] at h
          obtain ⟨rfl, rfl⟩ := h
          refine ⟨'\\' :: 'u' :: g, by simp, ?_⟩
          rw [addCodepoint_eq _ (by omega)]
          exact Element.unicode hg (by unfold Scalar; omega)
      · simp only [Option.map_eq_some_iff, Prod.mk.injEq] at h
        obtain ⟨e, he, rfl, rfl⟩ := h
        exact ⟨['\\', d], rfl, Element.escape ((simpleEscape_iff d e).1 he)⟩
  · have hn1 : c.toNat ≠ 0x22 := fun e => hq (ofNat_eq e)
    have hn2 : c.toNat ≠ 0x5c := fun e => h1 (ofNat_eq e)
    simp only [Option.bind_eq_some_iff, Option.map_eq_some_iff, Prod.mk.injEq] at h
    obtain ⟨rs, hf, ⟨s', r'⟩, hnb, rfl, rfl⟩ := h
    simp only at *
    have fin : ∀ n t, Scalar n → 0x20 ≤ n → n ≠ 0x22 → n ≠ 0x5c → c :: l = t ++ r' → t = bytes (utf8 n) → t = c :: s' →
        ∃ t, c :: l = t ++ r' ∧ Element t (c :: s') := by
      intro n t a1 a2 a3 a4 a5 a6 a7
      refine ⟨t, a5, ?_⟩
      rw [← a7, a6]
      exact Element.plain a1 a2 a3 a4
    have one : ∀ lo hi rs l s r, nextBytes ((lo, hi) :: rs) l = some (s, r) → ∃ d l' s', l = d :: l' ∧ s = d :: s' ∧
        lo ≤ d.toNat ∧ d.toNat ≤ hi ∧ nextBytes rs l' = some (s', r) := by
      intro lo hi rs l s r h
      cases l with
      | nil => cases h
      | cons d l' =>
        simp only [nextBytes] at h
        split_ifs at h with hr
        simp only [Option.map_eq_some_iff, Prod.mk.injEq] at h
        obtain ⟨⟨s1, r1⟩, h1, rfl, rfl⟩ := h
        exact ⟨d, l', s1, rfl, rfl, hr.1, hr.2, h1⟩
    have two : ∀ lo hi, 0xc2 ≤ c.toNat → c.toNat ≤ 0xdf → lo = 0x80 → hi = 0xbf →
        nextBytes [(lo, hi)] l = some (s', r') → ∃ t, c :: l = t ++ r' ∧ Element t (c :: s') := by
      rintro lo hi b1 b2 rfl rfl h
      obtain ⟨d, l1, s1, rfl, rfl, c1, c2, h⟩ := one _ _ _ _ _ _ h
      simp only [nextBytes, Option.some.injEq, Prod.mk.injEq] at h
      obtain ⟨rfl, rfl⟩ := h
      refine fin ((c.toNat - 0xc0) * 64 + (d.toNat - 0x80)) [c, d] (by unfold Scalar; omega) (by omega) (by omega) (by omega)
        rfl ?_ rfl
      unfold utf8
      rw [if_neg (by omega), if_pos (by omega)]
      simp only [bytes, List.map_cons, List.map_nil, List.cons.injEq, and_true]
      exact ⟨ofNat_eq (by omega), ofNat_eq (by omega)⟩
    have three : ∀ lo hi, 0xe0 ≤ c.toNat → c.toNat ≤ 0xef → 0x80 ≤ lo → hi ≤ 0xbf → (c.toNat = 0xe0 → 0xa0 ≤ lo) →
        (c.toNat = 0xed → hi ≤ 0x9f) →
        nextBytes [(lo, hi), (0x80, 0xbf)] l = some (s', r') → ∃ t, c :: l = t ++ r' ∧ Element t (c :: s') := by
      intro lo hi b1 b2 b3 b4 b5 b6 h
      obtain ⟨d, l1, s1, rfl, rfl, c1, c2, h⟩ := one _ _ _ _ _ _ h
      obtain ⟨e, l2, s2, rfl, rfl, d1, d2, h⟩ := one _ _ _ _ _ _ h
      simp only [nextBytes, Option.some.injEq, Prod.mk.injEq] at h
      obtain ⟨rfl, rfl⟩ := h
      refine fin ((c.toNat - 0xe0) * 4096 + (d.toNat - 0x80) * 64 + (e.toNat - 0x80)) [c, d, e] (by unfold Scalar; omega)
        (by omega) (by omega) (by omega) rfl ?_ rfl
      unfold utf8
      rw [if_neg (by omega), if_neg (by omega), if_pos (by omega)]
      simp only [bytes, List.map_cons, List.map_nil, List.cons.injEq, and_true]
      exact ⟨ofNat_eq (by omega), ofNat_eq (by omega), ofNat_eq (by omega)⟩
    have four : ∀ lo hi, 0xf0 ≤ c.toNat → c.toNat ≤ 0xf4 → 0x80 ≤ lo → hi ≤ 0xbf → (c.toNat = 0xf0 → 0x90 ≤ lo) →
        (c.toNat = 0xf4 → hi ≤ 0x8f) →
        nextBytes [(lo, hi), (0x80, 0xbf), (0x80, 0xbf)] l = some (s', r') →
        ∃ t, c :: l = t ++ r' ∧ Element t (c :: s') := by
      intro lo hi b1 b2 b3 b4 b5 b6 h
      obtain ⟨d, l1, s1, rfl, rfl, c1, c2, h⟩ := one _ _ _ _ _ _ h
      obtain ⟨e, l2, s2, rfl, rfl, d1, d2, h⟩ := one _ _ _ _ _ _ h
      obtain ⟨f, l3, s3, rfl, rfl, e1, e2, h⟩ := one _ _ _ _ _ _ h
      simp only [nextBytes, Option.some.injEq, Prod.mk.injEq] at h
      obtain ⟨rfl, rfl⟩ := h
      refine fin ((c.toNat - 0xf0) * 262144 + (d.toNat - 0x80) * 4096 + (e.toNat - 0x80) * 64 + (f.toNat - 0x80))
        [c, d, e, f] (by unfold Scalar; omega) (by omega) (by omega) (by omega) rfl ?_ rfl
      unfold utf8
      rw [if_neg (by omega), if_neg (by omega), if_neg (by omega)]
      simp only [bytes, List.map_cons, List.map_nil, List.cons.injEq, and_true]
      exact ⟨ofNat_eq (by omega), ofNat_eq (by omega), ofNat_eq (by omega), ofNat_eq (by omega)⟩
    rcases followers_cases hf with ⟨g1, g2, rfl⟩ | ⟨g1, g2, rfl⟩ | ⟨g1, g2, lo, hi, rfl, g3, g4, g5, g6⟩ |
      ⟨g1, g2, lo, hi, rfl, g3, g4, g5, g6⟩
    · rw [nextBytes_nil] at hnb
      simp only [Option.some.injEq, Prod.mk.injEq] at hnb
      obtain ⟨rfl, rfl⟩ := hnb
      refine fin c.toNat [c] (by unfold Scalar; omega) (by omega) hn1 hn2 rfl ?_ rfl
      unfold utf8
      rw [if_pos (by omega)]
      simp [bytes]
    · exact two _ _ g1 g2 rfl rfl hnb
    · exact three lo hi g1 g2 g3 g4 g5 g6 hnb
    · exact four lo hi g1 g2 g3 g4 g5 g6 hnb

theorem lexString_chars {t s : List Char} (h : Chars t s) (rest : List Char) :
    ∀ n, t.length < n → lexString n (t ++ '"' :: rest) = some (s, rest) := by
  induction h with
  | nil =>
    intro n hn
    obtain ⟨m, rfl⟩ : ∃ m, n = m + 1 := ⟨n - 1, by simp at hn; omega⟩
    rfl
  | @cons t s ts ss he _ ih =>
    intro n hn
    obtain ⟨m, rfl⟩ : ∃ m, n = m + 1 := ⟨n - 1, by omega⟩
    obtain ⟨c, r, rfl, hc⟩ := element_ne he
    have := lexChar_element he (ts ++ '"' :: rest)
    simp only [List.cons_append, List.append_assoc, lexString] at this ⊢
    rw [if_neg hc, this]
    simp only [Option.bind_some]
    rw [ih m (by simp at hn; omega)]
    rfl

theorem chars_of_lexString : ∀ (n : Nat) (l s r : List Char), lexString n l = some (s, r) →
    ∃ t, l = t ++ '"' :: r ∧ Chars t s := by
  intro n
  induction n with
  | zero => intro l s r h; cases h
  | succ n ih =>
    intro l s r h
    cases l with
    | nil => cases h
    | cons c l =>
      simp only [lexString] at h
      split_ifs at h with h1
      · simp only [Option.some.injEq, Prod.mk.injEq] at h
        obtain ⟨rfl, rfl⟩ := h
        exact ⟨[], by rw [h1]; rfl, Chars.nil⟩
      · simp only [Option.bind_eq_some_iff, Option.map_eq_some_iff, Prod.mk.injEq] at h
        obtain ⟨⟨s1, l1⟩, hc, ⟨s2, l2⟩, hs, rfl, rfl⟩ := h
        obtain ⟨t, e, he⟩ := element_of_lexChar h1 hc
        obtain ⟨ts, e2, hts⟩ := ih _ _ _ hs
        simp only at *
        exact ⟨t ++ ts, by rw [e, e2]; simp, Chars.cons he hts⟩

/-! ## Numbers -/

theorem jdigit_iff (c : Char) : isDigit c = true ↔ Digit c := by unfold isDigit Digit; simp

instance (c : Char) : Decidable (Digit c) := by unfold Digit; infer_instance

theorem takeDigits {ds : List Char} (h : ∀ d ∈ ds, Digit d) {rest : List Char} (hr : ∀ c ∈ rest.head?, ¬ Digit c) :
    (ds ++ rest).takeWhile isDigit = ds ∧ (ds ++ rest).dropWhile isDigit = rest := by
  induction ds with
  | nil =>
    cases rest with
    | nil => exact ⟨rfl, rfl⟩
    | cons c r =>
      have : isDigit c = false := by
        cases hc : isDigit c with
        | false => rfl
        | true => exact absurd ((jdigit_iff c).1 hc) (hr c (by simp))
      simp [this]
  | cons d ds ih =>
    have hd := (jdigit_iff d).2 (h d (by simp))
    have := ih (fun x hx => h x (by simp [hx]))
    simp [hd, this]

theorem digits_split (l : List Char) : (∀ d ∈ l.takeWhile isDigit, Digit d) ∧
    l = l.takeWhile isDigit ++ l.dropWhile isDigit :=
  ⟨fun d hd => (jdigit_iff d).1 (List.all_eq_true.1 List.all_takeWhile d hd), List.takeWhile_append_dropWhile.symm⟩

theorem lexDigits_append {ds : List Char} (hne : ds ≠ []) (h : ∀ d ∈ ds, Digit d) {rest : List Char}
    (hr : ∀ c ∈ rest.head?, ¬ Digit c) : lexDigits (ds ++ rest) = some (ds, rest) := by
  obtain ⟨h1, h2⟩ := takeDigits h hr
  unfold lexDigits
  rw [h1, h2, if_neg hne]

theorem of_lexDigits {l ds r : List Char} (h : lexDigits l = some (ds, r)) :
    l = ds ++ r ∧ ds ≠ [] ∧ ∀ d ∈ ds, Digit d := by
  unfold lexDigits at h
  split_ifs at h with h1
  simp only [Option.some.injEq, Prod.mk.injEq] at h
  obtain ⟨rfl, rfl⟩ := h
  obtain ⟨h2, h3⟩ := digits_split l
  exact ⟨h3, h1, h2⟩

theorem digit_ne {c d : Char} (h : Digit c) (hd : ¬ Digit d) : c ≠ d := fun e => hd (e ▸ h)

theorem whole_head {l : List Char} (h : Whole l) : ∃ c r, l = c :: r ∧ Digit c ∧ ∀ d ∈ r, Digit d := by
  rcases h with rfl | ⟨c, r, rfl, h1, h2, h3⟩
  · exact ⟨'0', [], rfl, by decide, by simp⟩
  · exact ⟨c, r, rfl, ⟨Char.le_trans (show '0' ≤ '1' by decide) h1, h2⟩, h3⟩

theorem lexWhole_append {ip : List Char} (h : Whole ip) {rest : List Char} (hr : ∀ c ∈ rest.head?, ¬ Digit c) :
    lexWhole (ip ++ rest) = some (ip, rest) := by
  rcases h with rfl | ⟨c, r, rfl, h1, h2, h3⟩
  · rfl
  · have hc : c ≠ '0' := by rintro rfl; exact absurd h1 (by decide)
    have hd : isDigit c = true := (jdigit_iff c).2 ⟨Char.le_trans (show '0' ≤ '1' by decide) h1, h2⟩
    obtain ⟨e1, e2⟩ := takeDigits h3 hr
    simp only [List.cons_append, lexWhole]
    rw [if_neg hc, if_pos hd, e1, e2]

theorem of_lexWhole {l ip r : List Char} (h : lexWhole l = some (ip, r)) : l = ip ++ r ∧ Whole ip := by
  cases l with
  | nil => cases h
  | cons c l =>
    simp only [lexWhole] at h
    split_ifs at h with h1 h2
    · simp only [Option.some.injEq, Prod.mk.injEq] at h
      obtain ⟨rfl, rfl⟩ := h
      exact ⟨rfl, Or.inl (by rw [h1])⟩
    · simp only [Option.some.injEq, Prod.mk.injEq] at h
      obtain ⟨rfl, rfl⟩ := h
      obtain ⟨e1, e2⟩ := digits_split l
      obtain ⟨d1, d2⟩ := (jdigit_iff c).1 h2
      refine ⟨by rw [List.cons_append, ← e2], Or.inr ⟨c, _, rfl, ?_, d2, e1⟩⟩
      have a1 : 48 ≤ c.toNat := d1
      have a2 : c.toNat ≠ 48 := fun e => h1 (ofNat_eq e)
      have : 49 ≤ c.toNat := by omega
      exact this

/-- The optional fraction of a number. -/
def FracOpt (t : List Char) : Option (List Char) → Prop
  | none => t = []
  | some fp => Fraction t fp

/-- The optional exponent of a number. -/
def ExpOpt (t : List Char) : Option Int → Prop
  | none => t = []
  | some e => Exponent t e

theorem numberText_iff (t : List Char) (neg : Bool) (ip : List Char) (fp : Option (List Char)) (e : Option Int) :
    NumberText t neg ip fp e ↔ ∃ tf te, t = (if neg then ['-'] else []) ++ ip ++ tf ++ te ∧ Whole ip ∧ FracOpt tf fp ∧
      ExpOpt te e := by
  unfold NumberText FracOpt ExpOpt
  cases fp <;> cases e <;> rfl

theorem lexExp_append {te : List Char} {e : Option Int} (h : ExpOpt te e) {rest : List Char} (hr : EndsNumber rest) :
    lexExp (te ++ rest) = some (e, rest) := by
  cases e with
  | none =>
    rw [show te = [] from h]
    cases rest with
    | nil => rfl
    | cons c r =>
      obtain ⟨_, _, h2, h3⟩ := hr c (by simp)
      simp only [List.nil_append, lexExp]
      rw [if_neg (by simp [h2, h3])]
  | some e =>
    obtain ⟨c, s, ds, rfl, hc, hne, hds, hs⟩ := h
    have hr' : ∀ c ∈ rest.head?, ¬ Digit c := fun c hc => (hr c hc).1
    simp only [List.cons_append, List.append_assoc, lexExp]
    rw [if_pos hc]
    rcases hs with ⟨rfl | rfl, rfl⟩ | ⟨rfl, rfl⟩
    · have ht : takeSign (ds ++ rest) = (false, ds ++ rest) := by
        cases ds with
        | nil => exact absurd rfl hne
        | cons d ds =>
          have hd := hds d (by simp)
          have h1 := digit_ne hd (d := '-') (by decide)
          have h2 := digit_ne hd (d := '+') (by decide)
          simp only [List.cons_append]
          unfold takeSign
          split <;> simp_all
      simp only [List.nil_append, ht]
      rw [lexDigits_append hne hds hr']
      rfl
    · simp only [List.cons_append, List.nil_append, takeSign]
      rw [lexDigits_append hne hds hr']
      rfl
    · simp only [List.cons_append, List.nil_append, takeSign]
      rw [lexDigits_append hne hds hr']
      rfl

theorem takeSign_split (l : List Char) : ∃ s, l = s ++ (takeSign l).2 ∧
    (((s = [] ∨ s = ['+']) ∧ (takeSign l).1 = false) ∨ (s = ['-'] ∧ (takeSign l).1 = true)) := by
  unfold takeSign
  split
  · exact ⟨['-'], rfl, Or.inr ⟨rfl, rfl⟩⟩
  · exact ⟨['+'], rfl, Or.inl ⟨Or.inr rfl, rfl⟩⟩
  · exact ⟨[], rfl, Or.inl ⟨Or.inl rfl, rfl⟩⟩

theorem of_lexExp {l r : List Char} {e : Option Int} (h : lexExp l = some (e, r)) : ∃ te, l = te ++ r ∧ ExpOpt te e := by
  cases l with
  | nil =>
    simp only [lexExp, Option.some.injEq, Prod.mk.injEq] at h
    obtain ⟨rfl, rfl⟩ := h
    exact ⟨[], rfl, rfl⟩
  | cons c l =>
    simp only [lexExp] at h
    by_cases h1 : c = 'e' ∨ c = 'E'
    · rw [if_pos h1] at h
      simp only [Option.map_eq_some_iff, Prod.mk.injEq] at h
      obtain ⟨⟨ds, r'⟩, hd, rfl, rfl⟩ := h
      obtain ⟨e1, e2, e3⟩ := of_lexDigits hd
      obtain ⟨s, hs, hv⟩ := takeSign_split l
      refine ⟨c :: s ++ ds, by simp only [List.cons_append, List.append_assoc]; rw [← e1, ← hs], ?_⟩
      refine ⟨c, s, ds, rfl, h1, e2, e3, ?_⟩
      rcases hv with ⟨h2, h3⟩ | ⟨h2, h3⟩
      · exact Or.inl ⟨h2, by rw [h3]; rfl⟩
      · exact Or.inr ⟨h2, by rw [h3]; rfl⟩
    · rw [if_neg h1] at h
      simp only [Option.some.injEq, Prod.mk.injEq] at h
      obtain ⟨rfl, rfl⟩ := h
      exact ⟨[], rfl, rfl⟩

/-- After a fraction the text does not go on with a digit. -/
theorem expOpt_head {te : List Char} {e : Option Int} (h : ExpOpt te e) {rest : List Char} (hr : EndsNumber rest) :
    ∀ c ∈ (te ++ rest).head?, ¬ Digit c ∧ c ≠ '.' := by
  intro c hc
  cases e with
  | none => rw [show te = [] from h] at hc; exact ⟨(hr c hc).1, (hr c hc).2.1⟩
  | some e =>
    obtain ⟨d, s, ds, rfl, hd, -⟩ := h
    simp only [List.cons_append, List.head?_cons, Option.mem_some_iff] at hc
    subst hc
    rcases hd with rfl | rfl <;> exact ⟨by decide, by decide⟩

theorem lexFrac_append {tf : List Char} {fp : Option (List Char)} (h : FracOpt tf fp) {rest : List Char}
    (hr : ∀ c ∈ rest.head?, ¬ Digit c ∧ c ≠ '.') : lexFrac (tf ++ rest) = some (fp.getD [], rest) := by
  cases fp with
  | none =>
    rw [show tf = [] from h]
    cases rest with
    | nil => rfl
    | cons c r =>
      simp only [List.nil_append, lexFrac]
      rw [if_neg (hr c (by simp)).2]
      rfl
  | some fp =>
    obtain ⟨rfl, h1, h2⟩ := h
    simp only [List.cons_append, lexFrac, if_true]
    rw [lexDigits_append h1 h2 (fun c hc => (hr c hc).1)]
    rfl

theorem fracOpt_head {tf : List Char} {fp : Option (List Char)} (h : FracOpt tf fp) {rest : List Char}
    (hr : ∀ c ∈ rest.head?, ¬ Digit c ∧ c ≠ '.') : ∀ c ∈ (tf ++ rest).head?, ¬ Digit c := by
  intro c hc
  cases fp with
  | none => rw [show tf = [] from h] at hc; exact (hr c hc).1
  | some fp =>
    obtain ⟨rfl, -⟩ := h
    simp only [List.cons_append, List.head?_cons, Option.mem_some_iff] at hc
    subst hc
    decide

theorem of_lexFrac {l fp r : List Char} (h : lexFrac l = some (fp, r)) :
    ∃ tf, l = tf ++ r ∧ FracOpt tf (if fp = [] then none else some fp) := by
  cases l with
  | nil =>
    simp only [lexFrac, Option.some.injEq, Prod.mk.injEq] at h
    obtain ⟨rfl, rfl⟩ := h
    exact ⟨[], rfl, rfl⟩
  | cons c l =>
    simp only [lexFrac] at h
    split_ifs at h with h1
    · obtain ⟨e1, e2, e3⟩ := of_lexDigits h
      refine ⟨'.' :: fp, by rw [h1, e1]; rfl, ?_⟩
      rw [if_neg e2]
      exact ⟨rfl, e2, e3⟩
    · simp only [Option.some.injEq, Prod.mk.injEq] at h
      obtain ⟨rfl, rfl⟩ := h
      exact ⟨[], rfl, rfl⟩

theorem lexNumber_text {t ip : List Char} {neg : Bool} {fp : Option (List Char)} {e : Option Int}
    (h : NumberText t neg ip fp e) {rest : List Char} (hr : EndsNumber rest) :
    lexNumber (t ++ rest) = (numberValue neg ip (fp.getD []) e).map fun j => (j, rest) := by
  obtain ⟨tf, te, rfl, hw, hf, he⟩ := (numberText_iff _ _ _ _ _).1 h
  have hm : takeMinus ((if neg then ['-'] else []) ++ ip ++ tf ++ te ++ rest) = (neg, ip ++ (tf ++ (te ++ rest))) := by
    obtain ⟨c, r, rfl, hc, -⟩ := whole_head hw
    cases neg with
    | true => simp [takeMinus]
    | false =>
      have := digit_ne hc (d := '-') (by decide)
      simp [takeMinus, this]
  have h1 := expOpt_head he hr
  unfold lexNumber
  rw [hm]
  simp only
  rw [lexWhole_append hw (fracOpt_head hf h1)]
  simp only [Option.bind_some]
  rw [lexFrac_append hf h1]
  simp only [Option.bind_some]
  rw [lexExp_append he hr]
  rfl

theorem floatNumber_some {neg : Bool} {ip fp : List Char} {e : Int} {j : Json} : floatNumber neg ip fp e = some j ↔
    ∃ q, F64.ofRat (decimal neg ip fp e) = .fin q ∧ j = .float (.fin q) := by
  have hd : F64.ofRat ((if neg then -1 else 1) * (digitsVal (ip ++ fp) / 10 ^ fp.length * (10 : ℚ) ^ e)) =
      F64.ofRat (decimal neg ip fp e) := rfl
  unfold floatNumber
  rw [hd]
  cases F64.ofRat (decimal neg ip fp e) with
  | fin q =>
    constructor
    · intro h; injection h with h; exact ⟨q, rfl, h.symm⟩
    · rintro ⟨q', h, rfl⟩; injection h with h; rw [h]
  | nan => simp
  | inf s => simp

theorem lexNumber_append {t : List Char} {j : Json} (h : Number t j) {rest : List Char} (hr : EndsNumber rest) :
    lexNumber (t ++ rest) = some (j, rest) := by
  cases h with
  | @unsigned ip ht hn =>
    rw [lexNumber_text ht hr]
    unfold numberValue
    rw [if_pos ⟨rfl, rfl⟩, if_neg (by decide), if_pos (show digitsVal ip < 2 ^ 64 from hn)]
    rfl
  | @negative ip ht hn =>
    rw [lexNumber_text ht hr]
    unfold numberValue
    rw [if_pos ⟨rfl, rfl⟩, if_pos rfl, if_pos (show digitsVal ip ≤ 2 ^ 63 from hn)]
    rfl
  | @real neg ip fp e q ht hbig hq =>
    rw [lexNumber_text ht hr]
    have hfl : floatNumber neg ip (fp.getD []) (e.getD 0) = some (.float (.fin q)) := floatNumber_some.2 ⟨q, hq, rfl⟩
    have : numberValue neg ip (fp.getD []) e = some (.float (.fin q)) := by
      unfold numberValue
      by_cases hc : fp.getD [] = [] ∧ e = none
      · obtain ⟨h1, rfl⟩ := hc
        have hfp : fp = none := by
          cases fp with
          | none => rfl
          | some fp =>
            obtain ⟨tf, te, -, -, hf, -⟩ := (numberText_iff _ _ _ _ _).1 ht
            exact absurd h1 hf.2.1
        have hb := hbig hfp rfl
        rw [if_pos ⟨h1, rfl⟩]
        rw [h1] at hfl ⊢
        simp only [Option.getD_none] at hfl
        cases neg with
        | true =>
          have : ¬ digitsVal ip ≤ 2 ^ 63 := by
            have : 2 ^ 63 < digitsVal ip := hb
            omega
          rw [if_pos rfl, if_neg this]
          exact hfl
        | false =>
          have : ¬ digitsVal ip < 2 ^ 64 := by
            have : 2 ^ 64 ≤ digitsVal ip := hb
            omega
          rw [if_neg (by decide), if_neg this]
          exact hfl
      · rw [if_neg hc]; exact hfl
    rw [this]; rfl

theorem takeMinus_split (l : List Char) : l = (if (takeMinus l).1 then ['-'] else []) ++ (takeMinus l).2 := by
  cases l with
  | nil => rfl
  | cons c l =>
    unfold takeMinus
    by_cases h : c = '-'
    · simp [h]
    · simp [h]

theorem numberValue_number {t ip fp : List Char} {neg : Bool} {e : Option Int} {j : Json}
    (ht : NumberText t neg ip (if fp = [] then none else some fp) e) (hv : numberValue neg ip fp e = some j) :
    Number t j := by
  have hget : (if fp = [] then none else some fp : Option (List Char)).getD [] = fp := by
    split_ifs with h
    · exact h.symm
    · rfl
  unfold numberValue at hv
  by_cases hcond : fp = [] ∧ e = none
  · obtain ⟨rfl, rfl⟩ := hcond
    rw [if_pos rfl] at ht
    rw [if_pos ⟨rfl, rfl⟩] at hv
    cases neg with
    | true =>
      rw [if_pos rfl] at hv
      by_cases hb : digitsVal ip ≤ 2 ^ 63
      · rw [if_pos hb] at hv
        injection hv with hv; subst hv
        exact Number.negative ht hb
      · rw [if_neg hb] at hv
        obtain ⟨q, hq, rfl⟩ := floatNumber_some.1 hv
        refine Number.real ht (fun _ _ => ?_) hq
        rw [if_pos rfl]
        exact not_le.1 hb
    | false =>
      rw [if_neg (by decide)] at hv
      by_cases hb : digitsVal ip < 2 ^ 64
      · rw [if_pos hb] at hv
        injection hv with hv; subst hv
        exact Number.unsigned ht hb
      · rw [if_neg hb] at hv
        obtain ⟨q, hq, rfl⟩ := floatNumber_some.1 hv
        refine Number.real ht (fun _ _ => ?_) hq
        rw [if_neg (by decide)]
        exact not_lt.1 hb
  · rw [if_neg hcond] at hv
    obtain ⟨q, hq, rfl⟩ := floatNumber_some.1 hv
    refine Number.real ht (fun h1 h2 => absurd ⟨?_, h2⟩ hcond) (by rw [hget]; exact hq)
    by_contra h3
    rw [if_neg h3] at h1
    cases h1

theorem of_lexNumber {l r : List Char} {j : Json} (h : lexNumber l = some (j, r)) : ∃ t, l = t ++ r ∧ Number t j := by
  unfold lexNumber at h
  simp only [Option.bind_eq_some_iff, Option.map_eq_some_iff, Prod.mk.injEq] at h
  obtain ⟨⟨ip, l1⟩, ha, ⟨fp, l2⟩, hb, ⟨e, l3⟩, hc, j', hv, rfl, rfl⟩ := h
  obtain ⟨e1, hw⟩ := of_lexWhole ha
  obtain ⟨tf, e2, hf⟩ := of_lexFrac hb
  obtain ⟨te, e3, he⟩ := of_lexExp hc
  have hl := takeMinus_split l
  generalize (takeMinus l).1 = neg at *
  have ht : NumberText ((if neg then ['-'] else []) ++ ip ++ tf ++ te) neg ip (if fp = [] then none else some fp) e :=
    (numberText_iff _ _ _ _ _).2 ⟨tf, te, rfl, hw, hf, he⟩
  refine ⟨_, ?_, numberValue_number ht hv⟩
  rw [hl, e1, show l1 = tf ++ l2 from e2, show l2 = te ++ l3 from e3]
  simp only [List.append_assoc]

theorem number_head {t : List Char} {j : Json} (h : Number t j) : ∃ c r, t = c :: r ∧ (c = '-' ∨ Digit c) := by
  have : ∀ {t neg ip fp e}, NumberText t neg ip fp e → ∃ c r, t = c :: r ∧ (c = '-' ∨ Digit c) := by
    intro t neg ip fp e h
    obtain ⟨tf, te, rfl, hw, -, -⟩ := (numberText_iff _ _ _ _ _).1 h
    obtain ⟨c, r, rfl, hc, -⟩ := whole_head hw
    cases neg with
    | true => exact ⟨'-', _, rfl, Or.inl rfl⟩
    | false => exact ⟨c, _, rfl, Or.inr hc⟩
  cases h with
  | unsigned ht _ => exact this ht
  | negative ht _ => exact this ht
  | real ht _ _ => exact this ht

/-! ## Objects -/

theorem foldl_setMember (ps : List (String × Json)) : ∀ acc : List (String × Json),
    ps.foldl setMember acc = acc.filter (fun q => q.1 ∉ ps.map (·.1)) ++ latest ps := by
  induction ps with
  | nil => intro acc; simp [latest]
  | cons p ps ih =>
    intro acc
    rw [List.foldl_cons, ih]
    simp only [setMember, latest]
    rw [List.filter_append, List.filter_filter]
    by_cases h : p.1 ∈ ps.map (·.1)
    · rw [if_pos h, List.filter_cons_of_neg (by simpa using h)]
      simp only [List.filter_nil, List.append_nil]
      congr 1
      apply List.filter_congr
      intro q _
      simp only [List.map_cons, List.mem_cons, not_or, ne_eq, Bool.decide_and]
      exact Bool.and_comm _ _
    · rw [if_neg h, List.filter_cons_of_pos (by simpa using h)]
      simp only [List.filter_nil, List.append_assoc, List.cons_append, List.nil_append]
      congr 1
      apply List.filter_congr
      intro q _
      simp only [List.map_cons, List.mem_cons, not_or, ne_eq, Bool.decide_and]
      exact Bool.and_comm _ _

theorem setMembers (ps : List (String × Json)) : ps.foldl setMember [] = latest ps := by
  rw [foldl_setMember]; rfl

/-! ## Values -/

/-- The value is a number. -/
def IsNum : Json → Prop
  | .uint _ => True
  | .int _ => True
  | .float _ => True
  | _ => False

theorem value_head {t : List Char} {j : Json} (h : Parses t (.value j)) :
    ∃ c r, t = c :: r ∧ jsonSpace c = false ∧ c ≠ ']' := by
  cases h with
  | null => exact ⟨'n', "ull".toList, rfl, by decide, by decide⟩
  | true => exact ⟨'t', "rue".toList, rfl, by decide, by decide⟩
  | false => exact ⟨'f', "alse".toList, rfl, by decide, by decide⟩
  | number h =>
    obtain ⟨c, r, rfl, hc⟩ := number_head h
    refine ⟨c, r, rfl, ?_, ?_⟩
    · rcases hc with rfl | hc
      · decide
      · cases hs : jsonSpace c with
        | false => rfl
        | true =>
          rcases (jsonSpace_iff c).1 hs with rfl | rfl | rfl | rfl <;> exact absurd hc (by decide)
    · rcases hc with rfl | hc
      · decide
      · exact digit_ne hc (by decide)
  | string _ => exact ⟨'"', _, rfl, by decide, by decide⟩
  | emptyArray _ => exact ⟨'[', _, rfl, by decide, by decide⟩
  | array _ => exact ⟨'[', _, rfl, by decide, by decide⟩
  | emptyObject _ => exact ⟨'{', _, rfl, by decide, by decide⟩
  | object _ => exact ⟨'{', _, rfl, by decide, by decide⟩

theorem skip_value {t : List Char} {j : Json} (h : Parses t (.value j)) {w : List Char} (hw : Space w) (rest : List Char) :
    skipSpace (w ++ (t ++ rest)) = t ++ rest := by
  obtain ⟨c, r, rfl, hc, -⟩ := value_head h
  rw [skipSpace_append hw]
  exact skipSpace_cons hc _

theorem elements_head {t : List Char} {l : List Json} (h : Parses t (.elements l)) (rest : List Char) :
    (skipSpace (t ++ rest)).head? ≠ some ']' := by
  have key : ∀ {w t j}, Space w → Parses t (.value j) → ∀ rest, (skipSpace (w ++ (t ++ rest))).head? ≠ some ']' := by
    intro w t j hw ht rest
    rw [skip_value ht hw]
    obtain ⟨c, r, rfl, -, hc⟩ := value_head ht
    simpa using hc
  cases h with
  | lastElement hw _ ht => simp only [List.append_assoc]; exact key hw ht _
  | element hw _ ht _ => simp only [List.append_assoc]; exact key hw ht _

theorem members_head {t : List Char} {l : List (String × Json)} (h : Parses t (.members l)) (rest : List Char) :
    (skipSpace (t ++ rest)).head? ≠ some '}' := by
  have key : ∀ {w}, Space w → ∀ rest, (skipSpace (w ++ '"' :: rest)).head? ≠ some '}' := by
    intro w hw rest
    rw [skipSpace_append hw, skipSpace_cons (by decide)]
    simp
  cases h with
  | lastMember hw _ _ _ _ _ => simp only [List.append_assoc, List.cons_append]; exact key hw _
  | member hw _ _ _ _ _ _ => simp only [List.append_assoc, List.cons_append]; exact key hw _

theorem endsNumber_space {v : List Char} (hv : Space v) {c : Char} {r : List Char} (hc : c = ',' ∨ c = ']' ∨ c = '}') :
    EndsNumber (v ++ c :: r) := by
  intro d hd
  cases v with
  | nil =>
    simp only [List.nil_append, List.head?_cons, Option.mem_some_iff] at hd
    subst hd
    rcases hc with rfl | rfl | rfl <;> exact ⟨by decide, by decide, by decide, by decide⟩
  | cons e v =>
    simp only [List.cons_append, List.head?_cons, Option.mem_some_iff] at hd
    subst hd
    rcases hv e (by simp) with rfl | rfl | rfl | rfl <;> exact ⟨by decide, by decide, by decide, by decide⟩

/-- What the functions of the reader give on a phrase. -/
def ReadsAs (t : List Char) : Phrase → Prop
  | .value j => ∀ F rest, t.length < F → (IsNum j → EndsNumber rest) → parseValue F (t ++ rest) = some (j, rest)
  | .elements l => ∀ F n rest, t.length < F → t.length < n →
      parseItems (parseValue F) n (t ++ ']' :: rest) = some (l, rest)
  | .members l => ∀ F n rest, t.length < F → t.length < n →
      parseMembers (parseValue F) n (t ++ '}' :: rest) = some (l, rest)

theorem parseMember_append {w k v u t key : List Char} {j : Json} (hw : Space w) (hv : Space v) (hu : Space u)
    (hk : Chars k key) (ht : Parses t (.value j)) {pv : List Char → Option (Json × List Char)} {rest : List Char}
    (hpv : pv (t ++ rest) = some (j, rest)) :
    parseMember pv (w ++ '"' :: (k ++ '"' :: (v ++ ':' :: (u ++ (t ++ rest))))) = some ((String.ofList key, j), rest) := by
  unfold parseMember
  rw [skipSpace_append hw, skipSpace_cons (by decide)]
  simp only [if_true]
  rw [lexString_chars hk _ _ (by simp; omega)]
  simp only [Option.bind_some]
  rw [skipSpace_append hv, skipSpace_cons (by decide)]
  simp only [if_true]
  rw [skip_value ht hu, hpv]
  rfl

theorem reads_of_parses {t : List Char} {p : Phrase} (h : Parses t p) : ReadsAs t p := by
  induction h with
  | null =>
    intro F rest hF _
    obtain ⟨f, rfl⟩ : ∃ f, F = f + 1 := ⟨F - 1, by omega⟩
    rfl
  | true =>
    intro F rest hF _
    obtain ⟨f, rfl⟩ : ∃ f, F = f + 1 := ⟨F - 1, by omega⟩
    rfl
  | false =>
    intro F rest hF _
    obtain ⟨f, rfl⟩ : ∃ f, F = f + 1 := ⟨F - 1, by omega⟩
    rfl
  | @number t j h =>
    intro F rest hF hr
    obtain ⟨f, rfl⟩ : ∃ f, F = f + 1 := ⟨F - 1, by omega⟩
    have hnum : IsNum j := by cases h <;> trivial
    have hl := lexNumber_append h (hr hnum)
    obtain ⟨c, r, rfl, hc⟩ := number_head h
    have hne : ∀ d : Char, d ≠ '-' → ¬ Digit d → c ≠ d := by
      intro d h1 h2
      rcases hc with rfl | hc
      · exact h1.symm
      · exact digit_ne hc h2
    simp only [List.cons_append, parseValue] at hl ⊢
    rw [if_neg (hne '{' (by decide) (by decide)), if_neg (hne '[' (by decide) (by decide)),
      if_neg (hne '"' (by decide) (by decide)), if_neg (hne 't' (by decide) (by decide)),
      if_neg (hne 'f' (by decide) (by decide)), if_neg (hne 'n' (by decide) (by decide))]
    exact hl
  | @string t s h =>
    intro F rest hF _
    obtain ⟨f, rfl⟩ : ∃ f, F = f + 1 := ⟨F - 1, by omega⟩
    simp only [List.cons_append, List.append_assoc, List.nil_append, parseValue]
    rw [if_neg (by decide), if_neg (by decide), if_pos trivial, lexString_chars h _ _ (by simp; omega)]
    rfl
  | @emptyArray w hw =>
    intro F rest hF _
    obtain ⟨f, rfl⟩ : ∃ f, F = f + 1 := ⟨F - 1, by omega⟩
    have hs : skipSpace (w ++ ']' :: rest) = ']' :: rest := by
      rw [skipSpace_append hw, skipSpace_cons (by decide)]
    simp only [List.cons_append, List.append_assoc, List.nil_append, parseValue]
    rw [if_neg (by decide), if_pos trivial, hs]
    rfl
  | @array t l h ih =>
    intro F rest hF _
    simp only [List.length_cons, List.length_append, List.length_nil] at hF
    obtain ⟨f, rfl⟩ : ∃ f, F = f + 1 := ⟨F - 1, by omega⟩
    simp only [List.cons_append, List.append_assoc, List.nil_append, parseValue]
    rw [if_neg (by decide), if_pos trivial, if_neg (elements_head h _), ih f (f + 1) rest (by omega) (by omega)]
    rfl
  | @emptyObject w hw =>
    intro F rest hF _
    obtain ⟨f, rfl⟩ : ∃ f, F = f + 1 := ⟨F - 1, by omega⟩
    have hs : skipSpace (w ++ '}' :: rest) = '}' :: rest := by
      rw [skipSpace_append hw, skipSpace_cons (by decide)]
    simp only [List.cons_append, List.append_assoc, List.nil_append, parseValue]
    rw [if_pos trivial, hs]
    rfl
  | @object t l h ih =>
    intro F rest hF _
    simp only [List.length_cons, List.length_append, List.length_nil] at hF
    obtain ⟨f, rfl⟩ : ∃ f, F = f + 1 := ⟨F - 1, by omega⟩
    simp only [List.cons_append, List.append_assoc, List.nil_append, parseValue]
    rw [if_pos trivial, if_neg (members_head h _), ih f (f + 1) rest (by omega) (by omega)]
    simp only [Option.map_some, setMembers]
  | @lastElement w t v j hw hv ht ih =>
    intro F n rest hF hn
    simp only [List.length_append] at hF hn
    obtain ⟨m, rfl⟩ : ∃ m, n = m + 1 := ⟨n - 1, by omega⟩
    simp only [List.append_assoc, parseItems]
    rw [skip_value ht hw, ih F _ (by omega) (fun _ => endsNumber_space hv (by simp))]
    simp only [Option.bind_some]
    rw [skipSpace_append hv, skipSpace_cons (by decide)]
    rfl
  | @element w t v ts j l hw hv ht hts ih ihs =>
    intro F n rest hF hn
    simp only [List.length_append, List.length_cons] at hF hn
    obtain ⟨m, rfl⟩ : ∃ m, n = m + 1 := ⟨n - 1, by omega⟩
    simp only [List.append_assoc, List.cons_append, parseItems]
    rw [skip_value ht hw, ih F _ (by omega) (fun _ => endsNumber_space hv (by simp))]
    simp only [Option.bind_some]
    rw [skipSpace_append hv, skipSpace_cons (by decide)]
    simp only [if_true]
    rw [ihs F m rest (by omega) (by omega)]
    rfl
  | @lastMember w k v u t x key j hw hv hu hx hk ht ih =>
    intro F n rest hF hn
    simp only [List.length_append, List.length_cons] at hF hn
    obtain ⟨m, rfl⟩ : ∃ m, n = m + 1 := ⟨n - 1, by omega⟩
    simp only [List.append_assoc, List.cons_append, parseMembers]
    rw [parseMember_append hw hv hu hk ht (ih F _ (by omega) (fun _ => endsNumber_space hx (by simp)))]
    simp only [Option.bind_some]
    rw [skipSpace_append hx, skipSpace_cons (by decide)]
    rfl
  | @member w k v u t x ts key j l hw hv hu hx hk ht hts ih ihs =>
    intro F n rest hF hn
    simp only [List.length_append, List.length_cons] at hF hn
    obtain ⟨m, rfl⟩ : ∃ m, n = m + 1 := ⟨n - 1, by omega⟩
    simp only [List.append_assoc, List.cons_append, parseMembers]
    rw [parseMember_append hw hv hu hk ht (ih F _ (by omega) (fun _ => endsNumber_space hx (by simp)))]
    simp only [Option.bind_some]
    rw [skipSpace_append hx, skipSpace_cons (by decide)]
    simp only [if_true]
    rw [ihs F m rest (by omega) (by omega)]
    rfl

/-- The function reads only values of the grammar. -/
def ReadsValues (pv : List Char → Option (Json × List Char)) : Prop :=
  ∀ l j r, pv l = some (j, r) → ∃ t, l = t ++ r ∧ Parses t (.value j)

theorem parses_of_items {pv : List Char → Option (Json × List Char)} (hpv : ReadsValues pv) :
    ∀ (n : Nat) (l : List Char) (js : List Json) (r : List Char), parseItems pv n l = some (js, r) →
      ∃ t, l = t ++ ']' :: r ∧ Parses t (.elements js) := by
  intro n
  induction n with
  | zero => intro l js r h; cases h
  | succ n ih =>
    intro l js r h
    simp only [parseItems, Option.bind_eq_some_iff] at h
    obtain ⟨⟨j, l1⟩, hj, h⟩ := h
    obtain ⟨w, hw, el⟩ := skipSpace_split l
    obtain ⟨t, et, ht⟩ := hpv _ _ _ hj
    obtain ⟨v, hv, e1⟩ := skipSpace_split l1
    rw [et] at el
    simp only at h
    cases hs : skipSpace l1 with
    | nil => rw [hs] at h; cases h
    | cons c r1 =>
      rw [hs] at h e1
      simp only at h
      by_cases h1 : c = ','
      · rw [if_pos h1] at h
        simp only [Option.map_eq_some_iff, Prod.mk.injEq] at h
        obtain ⟨⟨js', r'⟩, h2, rfl, rfl⟩ := h
        obtain ⟨ts, e2, hts⟩ := ih _ _ _ h2
        exact ⟨w ++ t ++ v ++ ',' :: ts, by rw [el, e1, h1, e2]; simp, Parses.element hw hv ht hts⟩
      · rw [if_neg h1] at h
        by_cases h3 : c = ']'
        · rw [if_pos h3] at h
          simp only [Option.some.injEq, Prod.mk.injEq] at h
          obtain ⟨rfl, rfl⟩ := h
          exact ⟨w ++ t ++ v, by rw [el, e1, h3]; simp, Parses.lastElement hw hv ht⟩
        · rw [if_neg h3] at h; cases h

theorem of_parseMember {pv : List Char → Option (Json × List Char)} (hpv : ReadsValues pv) {l r : List Char}
    {p : String × Json} (h : parseMember pv l = some (p, r)) : ∃ w k v u t key, Space w ∧ Space v ∧ Space u ∧ Chars k key ∧
      Parses t (.value p.2) ∧ p.1 = String.ofList key ∧
      l = w ++ '"' :: (k ++ '"' :: (v ++ ':' :: (u ++ (t ++ r)))) := by
  unfold parseMember at h
  obtain ⟨w, hw, el⟩ := skipSpace_split l
  cases hs : skipSpace l with
  | nil => rw [hs] at h; cases h
  | cons c l1 =>
    rw [hs] at h el
    simp only at h
    by_cases h1 : c = '"'
    · rw [if_pos h1] at h
      simp only [Option.bind_eq_some_iff] at h
      obtain ⟨⟨key, l2⟩, hk, h⟩ := h
      obtain ⟨k, ek, hk⟩ := chars_of_lexString _ _ _ _ hk
      simp only at h
      obtain ⟨v, hv, ev⟩ := skipSpace_split l2
      cases hs2 : skipSpace l2 with
      | nil => rw [hs2] at h; cases h
      | cons d l3 =>
        rw [hs2] at h ev
        simp only at h
        by_cases h2 : d = ':'
        · rw [if_pos h2] at h
          simp only [Option.map_eq_some_iff, Prod.mk.injEq] at h
          obtain ⟨⟨j, l4⟩, hj, rfl, rfl⟩ := h
          obtain ⟨u, hu, eu⟩ := skipSpace_split l3
          obtain ⟨t, et, ht⟩ := hpv _ _ _ hj
          rw [et] at eu
          exact ⟨w, k, v, u, t, key, hw, hv, hu, hk, ht, rfl, by rw [el, h1, ek, ev, h2, eu]⟩
        · rw [if_neg h2] at h; cases h
    · rw [if_neg h1] at h; cases h

theorem parses_of_members {pv : List Char → Option (Json × List Char)} (hpv : ReadsValues pv) :
    ∀ (n : Nat) (l : List Char) (ps : List (String × Json)) (r : List Char), parseMembers pv n l = some (ps, r) →
      ∃ t, l = t ++ '}' :: r ∧ Parses t (.members ps) := by
  intro n
  induction n with
  | zero => intro l js r h; cases h
  | succ n ih =>
    intro l js r h
    simp only [parseMembers, Option.bind_eq_some_iff] at h
    obtain ⟨⟨⟨key', j⟩, l1⟩, hj, h⟩ := h
    obtain ⟨w, k, v, u, t, key, hw, hv, hu, hk, ht, ek, el⟩ := of_parseMember hpv hj
    simp only at ek ht
    subst ek
    obtain ⟨x, hx, e1⟩ := skipSpace_split l1
    simp only at h
    cases hs : skipSpace l1 with
    | nil => rw [hs] at h; cases h
    | cons c r1 =>
      rw [hs] at h e1
      simp only at h
      by_cases h1 : c = ','
      · rw [if_pos h1] at h
        simp only [Option.map_eq_some_iff, Prod.mk.injEq] at h
        obtain ⟨⟨js', r'⟩, h2, rfl, rfl⟩ := h
        obtain ⟨ts, e2, hts⟩ := ih _ _ _ h2
        exact ⟨_, by rw [el, e1, h1, e2]; simp, Parses.member hw hv hu hx hk ht hts⟩
      · rw [if_neg h1] at h
        by_cases h3 : c = '}'
        · rw [if_pos h3] at h
          simp only [Option.some.injEq, Prod.mk.injEq] at h
          obtain ⟨rfl, rfl⟩ := h
          exact ⟨_, by rw [el, e1, h3]; simp, Parses.lastMember hw hv hu hx hk ht⟩
        · rw [if_neg h3] at h; cases h

theorem of_lexLiteral {w : List Char} {j j' : Json} {l r : List Char} (h : lexLiteral w j l = some (j', r)) :
    l = w ++ r ∧ j' = j := by
  unfold lexLiteral at h
  split_ifs at h with h1
  simp only [Option.some.injEq, Prod.mk.injEq] at h
  obtain ⟨rfl, rfl⟩ := h
  obtain ⟨s, rfl⟩ := List.isPrefixOf_iff_prefix.1 h1
  exact ⟨by simp, rfl⟩

theorem head_tail {l : List Char} {c : Char} (h : l.head? = some c) : l = c :: l.tail := by
  cases l with
  | nil => cases h
  | cons d l => simp only [List.head?_cons, Option.some.injEq] at h; rw [h]; rfl

theorem parseValue_sound : ∀ F, ReadsValues (parseValue F) := by
  intro F
  induction F with
  | zero => intro l j r h; cases h
  | succ f ih =>
    intro l j r h
    cases l with
    | nil => cases h
    | cons c l =>
      simp only [parseValue] at h
      by_cases h1 : c = '{'
      · rw [if_pos h1] at h
        by_cases h2 : (skipSpace l).head? = some '}'
        · rw [if_pos h2] at h
          simp only [Option.some.injEq, Prod.mk.injEq] at h
          obtain ⟨rfl, rfl⟩ := h
          obtain ⟨w, hw, el⟩ := skipSpace_split l
          rw [head_tail h2] at el
          refine ⟨'{' :: w ++ ['}'], ?_, Parses.emptyObject hw⟩
          rw [h1]; conv_lhs => rw [el]
          simp
        · rw [if_neg h2] at h
          simp only [Option.map_eq_some_iff, Prod.mk.injEq] at h
          obtain ⟨⟨ps, r'⟩, hm, rfl, rfl⟩ := h
          obtain ⟨t, et, ht⟩ := parses_of_members ih _ _ _ _ hm
          refine ⟨'{' :: t ++ ['}'], by rw [h1, et]; simp, ?_⟩
          rw [setMembers]
          exact Parses.object ht
      rw [if_neg h1] at h
      by_cases h3 : c = '['
      · rw [if_pos h3] at h
        by_cases h2 : (skipSpace l).head? = some ']'
        · rw [if_pos h2] at h
          simp only [Option.some.injEq, Prod.mk.injEq] at h
          obtain ⟨rfl, rfl⟩ := h
          obtain ⟨w, hw, el⟩ := skipSpace_split l
          rw [head_tail h2] at el
          refine ⟨'[' :: w ++ [']'], ?_, Parses.emptyArray hw⟩
          rw [h3]; conv_lhs => rw [el]
          simp
        · rw [if_neg h2] at h
          simp only [Option.map_eq_some_iff, Prod.mk.injEq] at h
          obtain ⟨⟨ps, r'⟩, hm, rfl, rfl⟩ := h
          obtain ⟨t, et, ht⟩ := parses_of_items ih _ _ _ _ hm
          exact ⟨'[' :: t ++ [']'], by rw [h3, et]; simp, Parses.array ht⟩
      rw [if_neg h3] at h
      by_cases h4 : c = '"'
      · rw [if_pos h4] at h
        simp only [Option.map_eq_some_iff, Prod.mk.injEq] at h
        obtain ⟨⟨s, r'⟩, hs, rfl, rfl⟩ := h
        obtain ⟨t, et, ht⟩ := chars_of_lexString _ _ _ _ hs
        exact ⟨'"' :: t ++ ['"'], by rw [h4, et]; simp, Parses.string ht⟩
      rw [if_neg h4] at h
      by_cases h5 : c = 't'
      · rw [if_pos h5] at h
        obtain ⟨e, rfl⟩ := of_lexLiteral h
        exact ⟨_, e, Parses.true⟩
      rw [if_neg h5] at h
      by_cases h6 : c = 'f'
      · rw [if_pos h6] at h
        obtain ⟨e, rfl⟩ := of_lexLiteral h
        exact ⟨_, e, Parses.false⟩
      rw [if_neg h6] at h
      by_cases h7 : c = 'n'
      · rw [if_pos h7] at h
        obtain ⟨e, rfl⟩ := of_lexLiteral h
        exact ⟨_, e, Parses.null⟩
      rw [if_neg h7] at h
      obtain ⟨t, et, ht⟩ := of_lexNumber h
      exact ⟨t, et, Parses.number ht⟩

end Verif
