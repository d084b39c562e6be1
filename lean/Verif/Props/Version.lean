import Verif.Model.Version
import Verif.Spec.Version
import Verif.Lemmas.Text

/-! # C117: releasing a version -/

namespace Verif.Props

open Verif Verif.Spec

theorem after_append (p l : List Char) : after? p (p ++ l) = some l := by
  induction p with
  | nil => cases l <;> rfl
  | cons c p ih => simp [after?, ih]

theorem after_some {p l r : List Char} (h : after? p l = some r) : l = p ++ r := by
  induction p generalizing l with
  | nil =>
    cases l <;> simpa [after?] using h
  | cons c p ih =>
    cases l with
    | nil => simp [after?] at h
    | cons d l =>
      rw [after?] at h
      split_ifs at h with hc
      rw [hc, ih h, List.cons_append]

/-- The names of the three macros. -/
structure IsName (name : List Char) : Prop where
  head : ∃ t, name = 'V' :: t
  length : name.length = 13
  digits : ∀ c ∈ name, c.isDigit = false

theorem major_isName : IsName majorName := ⟨⟨_, rfl⟩, rfl, by decide⟩
theorem minor_isName : IsName minorName := ⟨⟨_, rfl⟩, rfl, by decide⟩
theorem patch_isName : IsName patchName := ⟨⟨_, rfl⟩, rfl, by decide⟩

theorem dropWhile_gap (p : Char → Bool) (gap : List Char) (h : ∀ c ∈ gap, p c = true) (c : Char) (hc : p c = false) (t : List Char) :
    (gap ++ c :: t).dropWhile p = c :: t ∧ (gap ++ c :: t).takeWhile p = gap := by
  induction gap with
  | nil => simp [hc]
  | cons d gap ih =>
    have hd := h d (by simp)
    obtain ⟨h1, h2⟩ := ih (fun e he => h e (by simp [he]))
    constructor
    · rw [List.cons_append, List.dropWhile_cons, if_pos hd, h1]
    · rw [List.cons_append, List.takeWhile_cons, if_pos hd, h2]

/-- Everything that a pattern may take for a blank. -/
def anyBlank (c : Char) : Bool := c == ' ' || c == '\t' || c == '\\' || c == 't'

theorem anyBlank_iff (c : Char) : anyBlank c = true ↔ c = ' ' ∨ c = '\t' ∨ c = '\\' ∨ c = 't' := by
  simp [anyBlank, or_assoc]

/-- A line does not mention two names. -/
theorem mentions_one {a b line : List Char} (ha : IsName a) (hb : IsName b) (h1 : Mentions a line) (h2 : Mentions b line) : a = b := by
  obtain ⟨g, r, e1, hg⟩ := h1
  obtain ⟨g', r', e2, hg'⟩ := h2
  obtain ⟨ta, ea⟩ := ha.head
  obtain ⟨tb, eb⟩ := hb.head
  rw [e1] at e2
  simp only [List.append_assoc] at e2
  have e3 := List.append_cancel_left e2
  have k1 := dropWhile_gap anyBlank g (fun c hc => (anyBlank_iff c).mpr (hg c hc)) 'V' rfl (ta ++ r)
  have k2 := dropWhile_gap anyBlank g' (fun c hc => (anyBlank_iff c).mpr (hg' c hc)) 'V' rfl (tb ++ r')
  have e4 : g ++ 'V' :: (ta ++ r) = g' ++ 'V' :: (tb ++ r') := by
    have := e3
    rw [ea, eb] at this
    simpa using this
  have e5 : a ++ r = b ++ r' := by
    rw [ea, eb, List.cons_append, List.cons_append, ← k1.1, ← k2.1, e4]
  exact List.append_inj_left e5 (by rw [ha.length, hb.length])

theorem defines_mentions {name line : List Char} {n : ℕ} (h : Defines name line n) : Mentions name line := by
  obtain ⟨k, j, rest, rfl, -⟩ := h
  exact ⟨List.replicate (k + 1) ' ', List.replicate (j + 1) ' ' ++ Nat.toDigits 10 n ++ rest, by simp, by
    intro c hc
    left
    exact List.eq_of_mem_replicate hc⟩

theorem grep_mentions {name line : List Char} (h : grepDefine name line = true) : Mentions name line := by
  unfold grepDefine at h
  split at h
  · simp at h
  · rename_i r hr
    obtain ⟨t, ht⟩ := Option.isSome_iff_exists.mp h
    refine ⟨r.takeWhile grepBlank, t, ?_, ?_⟩
    · rw [after_some hr, List.append_assoc, List.append_assoc, ← after_some ht, List.takeWhile_append_dropWhile]
      rfl
    · intro c hc
      have := List.mem_takeWhile_imp hc
      simp only [grepBlank, Bool.or_eq_true, beq_iff_eq] at this
      tauto

theorem commit_not_mentions {name line : List Char} (v : List Char) (h : ¬ Mentions name line) : commitLine name v line = line := by
  unfold commitLine
  split
  · rfl
  · rename_i r hr
    split
    · rfl
    · rename_i t ht
      refine absurd ⟨r.takeWhile sedBlank, t, ?_, ?_⟩ h
      · rw [after_some hr, List.append_assoc, List.append_assoc, ← after_some ht, List.takeWhile_append_dropWhile]
        rfl
      · intro c hc
        have := List.mem_takeWhile_imp hc
        simp only [sedBlank, Bool.or_eq_true, beq_iff_eq] at this
        tauto

/-- A line that is committed still mentions only what it did. -/
theorem commit_mentions {name line : List Char} (v : List Char) : commitLine name v line = line ∨ Mentions name (commitLine name v line) := by
  by_cases h : Mentions name line
  · unfold commitLine
    split
    · exact .inl rfl
    · rename_i r hr
      split
      · exact .inl rfl
      · rename_i t ht
        right
        refine ⟨r.takeWhile sedBlank, ' ' :: v ++ (t.dropWhile sedBlank).dropWhile Char.isDigit, ?_, ?_⟩
        · rw [show defineWord = "#define".toList from rfl]
          simp
        · intro c hc
          have := List.mem_takeWhile_imp hc
          simp only [sedBlank, Bool.or_eq_true, beq_iff_eq] at this
          tauto
  · exact .inl (commit_not_mentions v h)

theorem digits_toDigits (n : ℕ) : ∀ c ∈ Nat.toDigits 10 n, c.isDigit = true := natText_digits n

theorem dropWhile_all (p : Char → Bool) (l m : List Char) (h : ∀ c ∈ l, p c = true) (hm : ∀ c ∈ m, p c = false) : (l ++ m).dropWhile p = m := by
  induction l with
  | nil =>
    cases m with
    | nil => rfl
    | cons c m => rw [List.nil_append, List.dropWhile_cons, if_neg (by rw [hm c (by simp)]; simp)]
  | cons c l ih => rw [List.cons_append, List.dropWhile_cons, if_pos (h c (by simp)), ih (fun d hd => h d (by simp [hd]))]

theorem commit_defines {name line : List Char} (hn : IsName name) {n : ℕ} (h : Defines name line n) (m : ℕ) :
    Defines name (commitLine name (Nat.toDigits 10 m) line) m := by
  obtain ⟨k, j, rest, rfl, hrest⟩ := h
  obtain ⟨t, ht⟩ := hn.head
  obtain ⟨d, ds, hd⟩ : ∃ d ds, Nat.toDigits 10 n = d :: ds := by
    cases hq : Nat.toDigits 10 n with
    | nil => exact absurd hq (natText_ne_nil n)
    | cons d ds => exact ⟨d, ds, rfl⟩
  have hdig := digits_toDigits n
  have hd1 : d.isDigit = true := hdig d (by rw [hd]; simp)
  have hd2 : sedBlank d = false := by
    rw [← Bool.not_eq_true]
    intro hb
    simp only [sedBlank, Bool.or_eq_true, beq_iff_eq] at hb
    rcases hb with rfl | rfl <;> exact absurd hd1 (by decide)
  have e1 : after? defineWord ("#define".toList ++ List.replicate (k + 1) ' ' ++ name ++ List.replicate (j + 1) ' ' ++ Nat.toDigits 10 n ++ rest) =
      some (List.replicate (k + 1) ' ' ++ (name ++ (List.replicate (j + 1) ' ' ++ (Nat.toDigits 10 n ++ rest)))) := by
    simp only [List.append_assoc]
    exact after_append _ _
  have hrep : ∀ i, ∀ c ∈ List.replicate i ' ', sedBlank c = true := by
    intro i c hc
    rw [List.eq_of_mem_replicate hc]
    rfl
  have k1 := dropWhile_gap sedBlank (List.replicate (k + 1) ' ') (hrep _) 'V' rfl
    (t ++ (List.replicate (j + 1) ' ' ++ (Nat.toDigits 10 n ++ rest)))
  have k2 := dropWhile_gap sedBlank (List.replicate (j + 1) ' ') (hrep _) d hd2 (ds ++ rest)
  rw [← List.cons_append, ← ht] at k1
  rw [← List.cons_append, ← hd] at k2
  unfold commitLine
  rw [e1]
  simp only
  rw [k1.1, after_append]
  simp only
  rw [k1.2, k2.1, dropWhile_all Char.isDigit _ _ hdig hrest]
  exact ⟨k, 0, rest, by simp [defineWord], hrest⟩

theorem filter_none (l : List Char) (h : ∀ c ∈ l, c.isDigit = false) : l.filter Char.isDigit = [] := by
  rw [List.filter_eq_nil_iff]
  intro c hc
  rw [h c hc]
  simp

theorem filter_defines {name line : List Char} (hn : IsName name) {n : ℕ} (h : Defines name line n) :
    line.filter Char.isDigit = Nat.toDigits 10 n := by
  obtain ⟨k, j, rest, rfl, hrest⟩ := h
  have hrep : ∀ i, (List.replicate i ' ').filter Char.isDigit = [] := fun i => filter_none _ (by
    intro c hc
    rw [List.eq_of_mem_replicate hc]
    decide)
  simp only [List.filter_append, hrep, filter_none name hn.digits, filter_none rest hrest, List.append_nil,
    filter_none "#define".toList (by decide), List.nil_append]
  rw [List.filter_eq_self]
  exact digits_toDigits n

theorem grep_defines {name line : List Char} (hn : IsName name) {n : ℕ} (h : Defines name line n) : grepDefine name line = true := by
  obtain ⟨k, j, rest, rfl, hrest⟩ := h
  obtain ⟨t, ht⟩ := hn.head
  have hrep : ∀ i, ∀ c ∈ List.replicate i ' ', grepBlank c = true := by
    intro i c hc
    rw [List.eq_of_mem_replicate hc]
    rfl
  have k1 := dropWhile_gap grepBlank (List.replicate (k + 1) ' ') (hrep _) 'V' rfl
    (t ++ (List.replicate (j + 1) ' ' ++ (Nat.toDigits 10 n ++ rest)))
  rw [← List.cons_append, ← ht] at k1
  unfold grepDefine
  have e1 : after? defineWord ("#define".toList ++ List.replicate (k + 1) ' ' ++ name ++ List.replicate (j + 1) ' ' ++ Nat.toDigits 10 n ++ rest) =
      some (List.replicate (k + 1) ' ' ++ (name ++ (List.replicate (j + 1) ' ' ++ (Nat.toDigits 10 n ++ rest)))) := by
    simp only [List.append_assoc]
    exact after_append _ _
  rw [e1]
  simp only
  rw [k1.1, after_append]
  rfl

theorem getPart_says {file : List (List Char)} {name : List Char} (hn : IsName name) {n : ℕ} (h : Says file name n) :
    getPart name file = some (Nat.toDigits 10 n) := by
  obtain ⟨pre, line, post, rfl, hd, ho⟩ := h
  have hf : (pre ++ line :: post).find? (grepDefine name) = some line := by
    rw [List.find?_append]
    have : pre.find? (grepDefine name) = none := by
      rw [List.find?_eq_none]
      intro l hl hg
      exact ho l (by simp [hl]) (grep_mentions hg)
    rw [this, Option.none_or, List.find?_cons, grep_defines hn hd]
  unfold getPart
  rw [hf]
  simp only
  rw [filter_defines hn hd]
  exact if_neg (natText_ne_nil n)

theorem commit_says {file : List (List Char)} {name : List Char} (hn : IsName name) {n : ℕ} (h : Says file name n) (m : ℕ) :
    Says (file.map (commitLine name (Nat.toDigits 10 m))) name m := by
  obtain ⟨pre, line, post, rfl, hd, ho⟩ := h
  have hid : ∀ ls : List (List Char), (∀ l ∈ ls, ¬ Mentions name l) → ls.map (commitLine name (Nat.toDigits 10 m)) = ls := by
    intro ls hls
    conv_rhs => rw [← List.map_id ls]
    exact List.map_congr_left fun l hl => commit_not_mentions _ (hls l hl)
  refine ⟨pre, commitLine name (Nat.toDigits 10 m) line, post, ?_, commit_defines hn hd m, ho⟩
  rw [List.map_append, List.map_cons, hid pre (fun l hl => ho l (by simp [hl])), hid post (fun l hl => ho l (by simp [hl]))]

theorem commit_other {file : List (List Char)} {name other : List Char} (hn : IsName name) (ho : IsName other) (hne : name ≠ other) {n : ℕ}
    (v : List Char) (h : Says file other n) : Says (file.map (commitLine name v)) other n := by
  obtain ⟨pre, line, post, rfl, hd, hm⟩ := h
  have hl : ¬ Mentions name line := fun hl => hne (mentions_one hn ho hl (defines_mentions hd))
  refine ⟨pre.map (commitLine name v), line, post.map (commitLine name v), ?_, hd, ?_⟩
  · rw [List.map_append, List.map_cons, commit_not_mentions v hl]
  · intro l hl'
    rw [← List.map_append, List.mem_map] at hl'
    obtain ⟨l0, h0, rfl⟩ := hl'
    rcases commit_mentions (name := name) (line := l0) v with h | h
    · rw [h]; exact hm l0 h0
    · exact fun hx => hne (mentions_one hn ho h hx)

theorem getVersion_file {file : List (List Char)} {v : Triple} (h : VersionFile file v) :
    getVersion file = some ⟨Nat.toDigits 10 v.major, Nat.toDigits 10 v.minor, Nat.toDigits 10 v.patch⟩ := by
  unfold getVersion
  rw [getPart_says major_isName h.major, getPart_says minor_isName h.minor, getPart_says patch_isName h.patch]

/-- What committing does to a version file. -/
theorem commitVersion_file {file : List (List Char)} {v : Triple} (h : VersionFile file v) (w : Triple) :
    ∃ file', commitVersion ⟨Nat.toDigits 10 w.major, Nat.toDigits 10 w.minor, Nat.toDigits 10 w.patch⟩ file = (true, file') ∧ VersionFile file' w ∧
      file' = file.map fun l => commitLine majorName (Nat.toDigits 10 w.major) (commitLine minorName (Nat.toDigits 10 w.minor)
        (commitLine patchName (Nat.toDigits 10 w.patch) l)) := by
  have n1 : patchName ≠ minorName := by decide
  have n2 : patchName ≠ majorName := by decide
  have n3 : minorName ≠ majorName := by decide
  have p1 := commit_says patch_isName h.patch w.patch
  have m1 := commit_other patch_isName minor_isName n1 (Nat.toDigits 10 w.patch) h.minor
  have a1 := commit_other patch_isName major_isName n2 (Nat.toDigits 10 w.patch) h.major
  have p2 := commit_other minor_isName patch_isName n1.symm (Nat.toDigits 10 w.minor) p1
  have m2 := commit_says minor_isName m1 w.minor
  have a2 := commit_other minor_isName major_isName n3 (Nat.toDigits 10 w.minor) a1
  have p3 := commit_other major_isName patch_isName n2.symm (Nat.toDigits 10 w.major) p2
  have m3 := commit_other major_isName minor_isName n3.symm (Nat.toDigits 10 w.major) m2
  have a3 := commit_says major_isName a2 w.major
  refine ⟨_, ?_, ⟨a3, m3, p3⟩, ?_⟩
  · unfold commitVersion commitPart
    simp only [getPart_says patch_isName p1, getPart_says minor_isName m2, getPart_says major_isName a3, beq_self_eq_true, if_true]
  · simp [List.map_map, Function.comp_def]

/-! ## Numbers -/

theorem toDigits_head (n : ℕ) (c : Char) (cs : List Char) (h : Nat.toDigits 10 n = '0' :: c :: cs) : False := by
  induction n using Nat.strongRecOn generalizing c cs with
  | _ n ih =>
    rcases Nat.lt_or_ge n 10 with hn | hn
    · rw [Nat.toDigits_of_lt_base hn] at h
      simp at h
    · rw [Nat.toDigits_of_base_le (by norm_num) hn] at h
      cases hq : Nat.toDigits 10 (n / 10) with
      | nil => exact natText_ne_nil _ hq
      | cons d ds =>
        rw [hq, List.cons_append, List.cons.injEq] at h
        obtain ⟨rfl, -⟩ := h
        cases ds with
        | nil =>
          have h10 : 0 < n / 10 := Nat.div_pos hn (by norm_num)
          have hv := natText_val (n / 10)
          unfold natText at hv
          rw [hq] at hv
          have : Nat.ofDigitChars 10 ['0'] 0 = 0 := by decide
          omega
        | cons e es => exact ih (n / 10) (Nat.div_lt_self (by omega) (by norm_num)) e es hq

theorem shellNum_toDigits (n : ℕ) : shellNum? (Nat.toDigits 10 n) = some n := by
  have hv := natText_val n
  unfold natText at hv
  unfold shellNum?
  split
  · rename_i c cs h
    exact absurd h fun h => toDigits_head n _ _ h
  · rw [hv]

theorem shellInc_toDigits (n : ℕ) (h : n + 1 < 2 ^ 63) : shellInc (Nat.toDigits 10 n) = some (Nat.toDigits 10 (n + 1)) := by
  unfold shellInc
  rw [shellNum_toDigits]
  simp only
  rw [if_pos h]
  rfl

/-- The digits of a version. -/
def varsOf (v : Triple) : VersionVars := ⟨Nat.toDigits 10 v.major, Nat.toDigits 10 v.minor, Nat.toDigits 10 v.patch⟩

theorem bumpVars_next (p : Part) (v : Triple) (h : v.major + 1 < 2 ^ 63 ∧ v.minor + 1 < 2 ^ 63 ∧ v.patch + 1 < 2 ^ 63) :
    bumpVars p.word (varsOf v) = some (varsOf (v.next p)) := by
  cases p with
  | major =>
    unfold bumpVars
    rw [if_pos (by rfl)]
    simp only [varsOf, shellInc_toDigits _ h.1, Option.map_some, Triple.next, Nat.toDigits_zero]
  | minor =>
    unfold bumpVars
    rw [if_neg (by decide), if_pos (by rfl)]
    simp only [varsOf, shellInc_toDigits _ h.2.1, Option.map_some, Triple.next, Nat.toDigits_zero]
  | patch =>
    unfold bumpVars
    rw [if_neg (by decide), if_neg (by decide), if_pos (.inl rfl)]
    simp only [varsOf, shellInc_toDigits _ h.2.2, Option.map_some, Triple.next]

theorem versionText_of (v : Triple) : versionText (varsOf v) = v.text := by
  simp [versionText, varsOf, Triple.text]

/-! ## Command lines -/

theorem shellWords_word (cur w rest : List Char) (hw : ∀ c ∈ w, c ≠ ' ' ∧ c ≠ '\t' ∧ c ≠ '\n') :
    shellWords cur (w ++ rest) = shellWords (cur ++ w) rest := by
  induction w generalizing cur with
  | nil => simp
  | cons c w ih =>
    have := hw c (by simp)
    rw [List.cons_append, shellWords, if_neg (by tauto), ih _ (fun d hd => hw d (by simp [hd]))]
    simp

theorem shellWords_flat (ws : List (List Char)) (hw : ∀ w ∈ ws, IsWord w) (cur : List Char) :
    shellWords cur (ws.flatMap fun w => ' ' :: w) = (if cur = [] then [] else [cur]) ++ ws := by
  induction ws generalizing cur with
  | nil => simp [shellWords]
  | cons w ws ih =>
    have h1 := hw w (by simp)
    have e : shellWords [] (w ++ ws.flatMap fun w => ' ' :: w) = w :: ws := by
      rw [shellWords_word [] w _ h1.2.2, List.nil_append, ih (fun v hv => hw v (by simp [hv])) w, if_neg h1.1]
      rfl
    rw [List.flatMap_cons, List.cons_append, shellWords, if_pos (.inl rfl), e]
    split_ifs <;> rfl

theorem asksScript_cons {a : List Char} {as : List (List Char)} (h : ¬ (a = "-s".toList ∨ a = "--script".toList)) :
    AsksScript (a :: as) ↔ AsksScript as := by
  have n1 : ¬ "-s".toList = a := fun e => h (.inl e.symm)
  have n2 : ¬ "--script".toList = a := fun e => h (.inr e.symm)
  exact or_congr (by rw [List.mem_cons, or_iff_right n1]) (by rw [List.mem_cons, or_iff_right n2])

theorem asksDry_cons {a : List Char} {as : List (List Char)} (h : ¬ (a = "-d".toList ∨ a = "--dry-run".toList)) :
    AsksDry (a :: as) ↔ AsksDry as := by
  have n1 : ¬ "-d".toList = a := fun e => h (.inl e.symm)
  have n2 : ¬ "--dry-run".toList = a := fun e => h (.inr e.symm)
  exact or_congr (by rw [List.mem_cons, or_iff_right n1]) (by rw [List.mem_cons, or_iff_right n2])

theorem versionArgs_eq (args : List (List Char)) (h : CommandLine args) (s d : Bool) (p : List Char) :
    ∃ s' d', versionArgs args s d p = some (s', d', p ++ (plainWords args).flatMap fun w => ' ' :: w) ∧
      (s' = true ↔ s = true ∨ AsksScript args) ∧ (d' = true ↔ d = true ∨ AsksDry args) := by
  induction args generalizing s d p with
  | nil => exact ⟨s, d, by simp [versionArgs, plainWords], by simp [AsksScript], by simp [AsksDry]⟩
  | cons a as ih =>
    have ih := ih (fun b hb => h b (by simp [hb]))
    have hpf : IsFlag a → plainWords (a :: as) = plainWords as := by
      intro hf
      unfold plainWords
      rw [List.filter_cons, if_neg (by simp [hf])]
    have hpw : ¬ IsFlag a → plainWords (a :: as) = a :: plainWords as := by
      intro hf
      unfold plainWords
      rw [List.filter_cons, if_pos (by simp [hf])]
    have ha := h a (by simp)
    rw [versionArgs]
    by_cases h1 : a = "-s".toList ∨ a = "--script".toList
    · rw [if_pos h1]
      obtain ⟨s', d', e1, e2, e3⟩ := ih true d p
      refine ⟨s', d', ?_, ?_, ?_⟩
      · rw [e1, hpf (h1.elim .inl fun h => .inr (.inl h))]
      · rw [e2]
        refine iff_of_true (.inl rfl) (.inr ?_)
        rcases h1 with rfl | rfl
        · exact .inl List.mem_cons_self
        · exact .inr List.mem_cons_self
      · rw [e3, asksDry_cons (by rcases h1 with rfl | rfl <;> decide)]
    rw [if_neg h1]
    by_cases h2 : a = "-d".toList ∨ a = "--dry-run".toList
    · rw [if_pos h2]
      obtain ⟨s', d', e1, e2, e3⟩ := ih s true p
      refine ⟨s', d', ?_, ?_, ?_⟩
      · rw [e1, hpf (.inr (.inr h2))]
      · rw [e2, asksScript_cons h1]
      · rw [e3]
        refine iff_of_true (.inl rfl) (.inr ?_)
        rcases h2 with rfl | rfl
        · exact .inl List.mem_cons_self
        · exact .inr List.mem_cons_self
    rw [if_neg h2]
    have hnf : ¬ IsFlag a := by
      rintro (e | e | e)
      · exact h1 (.inl e)
      · exact h1 (.inr e)
      · exact h2 e
    have hw := ha.resolve_left hnf
    rw [if_neg (by rintro rfl; exact hw.2.1 rfl), if_neg hw.2.1]
    obtain ⟨s', d', e1, e2, e3⟩ := ih s d (p ++ ' ' :: a)
    refine ⟨s', d', ?_, ?_, ?_⟩
    · rw [e1, hpw hnf, List.flatMap_cons]
      simp
    · rw [e2, asksScript_cons h1]
    · rw [e3, asksDry_cons h2]

theorem plain_isWord {args : List (List Char)} (h : CommandLine args) : ∀ w ∈ plainWords args, IsWord w := by
  intro w hw
  simp only [plainWords, List.mem_filter, Bool.not_eq_true', decide_eq_false_iff_not] at hw
  exact (h w hw.1).resolve_left hw.2

/-- What a command line means. -/
theorem versionMain_eq {args : List (List Char)} (h : CommandLine args) (hne : args ≠ []) (file log : List (List Char)) :
    ∃ lf d, versionMain args (some file) (some log) = parseCommand lf d (plainWords args) file log ∧
      (AsksScript args ∧ lf = [] ∨ ¬ AsksScript args ∧ lf = ['\n']) ∧ (d = true ↔ AsksDry args) := by
  obtain ⟨s, d, e1, e2, e3⟩ := versionArgs_eq args h false false []
  refine ⟨if s then [] else ['\n'], d, ?_, ?_, by simpa using e3⟩
  · unfold versionMain
    rw [if_neg hne, e1]
    simp only [List.nil_append]
    rw [shellWords_flat _ (plain_isWord h), if_pos rfl, List.nil_append]
  · cases s with
    | true => left; exact ⟨by simpa using e2, rfl⟩
    | false => right; exact ⟨by simpa using e2, rfl⟩

/-- The newline at the end. -/
def Ending (args : List (List Char)) (lf : List Char) : Prop := AsksScript args ∧ lf = [] ∨ ¬ AsksScript args ∧ lf = ['\n']

theorem ne_of_plain {args : List (List Char)} {ws : List (List Char)} (h : plainWords args = ws) (hw : ws ≠ []) : args ≠ [] := by
  rintro rfl
  exact hw h.symm

/-- C117: `print` writes the version, and nothing changes. -/
theorem c117_print {args : List (List Char)} (h : CommandLine args) (hp : plainWords args = ["print".toList]) {file : List (List Char)} {v : Triple}
    (hf : VersionFile file v) (log : List (List Char)) :
    ∃ lf, Ending args lf ∧ versionMain args (some file) (some log) = ⟨0, v.text ++ lf, some file⟩ := by
  obtain ⟨lf, d, e1, e2, -⟩ := versionMain_eq h (ne_of_plain hp (by simp)) file log
  refine ⟨lf, e2, ?_⟩
  rw [e1, hp, parseCommand]
  simp only [if_pos, getVersion_file hf, List.headD_nil, printVersion]
  rw [show (⟨Nat.toDigits 10 v.major, Nat.toDigits 10 v.minor, Nat.toDigits 10 v.patch⟩ : VersionVars) = varsOf v from rfl, versionText_of]

/-- C117: `release` with a part makes the next version, says it, and changes nothing else in the file. -/
theorem c117_release {args : List (List Char)} (h : CommandLine args) (p : Part) (hp : plainWords args = ["release".toList, p.word])
    (hd : ¬ AsksDry args) {file : List (List Char)} {v : Triple} (hf : VersionFile file v)
    (hb : v.major + 1 < 2 ^ 63 ∧ v.minor + 1 < 2 ^ 63 ∧ v.patch + 1 < 2 ^ 63) (log : List (List Char)) :
    ∃ lf file', Ending args lf ∧ versionMain args (some file) (some log) = ⟨0, (v.next p).text ++ lf, some file'⟩ ∧ VersionFile file' (v.next p) ∧
      List.Forall₂ (fun l l' => l' = l ∨ Mentions "VERSION_MAJOR".toList l ∨ Mentions "VERSION_MINOR".toList l ∨ Mentions "VERSION_PATCH".toList l)
        file file' := by
  obtain ⟨lf, d, e1, e2, e3⟩ := versionMain_eq h (ne_of_plain hp (by simp)) file log
  have hd' : d = false := by
    rw [← Bool.not_eq_true]
    exact fun hx => hd (e3.mp hx)
  obtain ⟨file', c1, c2, c3⟩ := commitVersion_file hf (v.next p)
  refine ⟨lf, file', e2, ?_, c2, ?_⟩
  · rw [e1, hp, parseCommand]
    simp only
    rw [if_neg (by decide), if_pos trivial, getVersion_file hf]
    simp only [List.headD_cons]
    have hv : (⟨Nat.toDigits 10 v.major, Nat.toDigits 10 v.minor, Nat.toDigits 10 v.patch⟩ : VersionVars) = varsOf v := rfl
    have hc : commitVersion (varsOf (v.next p)) file = (true, file') := c1
    unfold bumpVersion
    rw [hv, bumpVars_next p v hb, hd']
    simp only [hc, versionText_of]
    rfl
  · rw [c3, List.forall₂_map_right_iff, List.forall₂_same]
    intro l _
    by_cases h1 : Mentions "VERSION_PATCH".toList l
    · exact .inr (.inr (.inr h1))
    by_cases h2 : Mentions "VERSION_MINOR".toList l
    · exact .inr (.inr (.inl h2))
    by_cases h3 : Mentions "VERSION_MAJOR".toList l
    · exact .inr (.inl h3)
    left
    rw [commit_not_mentions (name := patchName) _ h1, commit_not_mentions (name := minorName) _ h2, commit_not_mentions (name := majorName) _ h3]

/-- C117: another word than the three parts is refused, in whatever file, and nothing changes. -/
theorem c117_unknown {args : List (List Char)} (h : CommandLine args) (w : List Char) (more : List (List Char))
    (hp : plainWords args = "release".toList :: w :: more) (hw : ∀ p : Part, w ≠ p.word) (file log : List (List Char)) :
    versionMain args (some file) (some log) = ⟨1, [], some file⟩ := by
  obtain ⟨lf, d, e1, e2, e3⟩ := versionMain_eq h (ne_of_plain hp (by simp)) file log
  have hne : w ≠ [] := (plain_isWord h w (by rw [hp]; simp)).1
  rw [e1, hp, parseCommand]
  simp only
  rw [if_neg (by decide), if_pos trivial]
  cases getVersion file with
  | none => rfl
  | some v =>
    simp only [List.headD_cons]
    have : bumpVars w v = none := by
      unfold bumpVars
      rw [if_neg (show w ≠ "major".toList from hw .major), if_neg (show w ≠ "minor".toList from hw .minor), if_neg]
      rintro (h | h)
      · exact hw .patch h
      · exact hne h
    unfold bumpVersion
    rw [this]

/-- C117: `release` without a part releases a patch. -/
theorem c117_default (file log : List (List Char)) :
    versionMain ["release".toList] (some file) (some log) = versionMain ["release".toList, "patch".toList] (some file) (some log) := by
  have e1 : versionArgs ["release".toList] false false [] = some (false, false, " release".toList) := by decide
  have e2 : versionArgs ["release".toList, "patch".toList] false false [] = some (false, false, " release patch".toList) := by decide
  have w1 : shellWords [] " release".toList = ["release".toList] := by decide
  have w2 : shellWords [] " release patch".toList = ["release".toList, "patch".toList] := by decide
  unfold versionMain
  rw [if_neg (by simp), if_neg (by simp), e1, e2]
  simp only [w1, w2, parseCommand, List.headD_nil, List.headD_cons]
  rw [if_neg (by decide), if_pos trivial]
  cases getVersion file with
  | none => rfl
  | some v =>
    have : bumpVars [] v = bumpVars "patch".toList v := by
      unfold bumpVars
      rw [if_neg (by decide), if_neg (by decide), if_pos (.inr rfl), if_neg (by decide), if_neg (by decide), if_pos (.inl rfl)]
    simp only [bumpVersion, this]
    rw [if_neg (by decide : ¬ "release".toList = "print".toList), if_pos trivial]

/-- C117: the next version is greater. -/
theorem c117_greater (v : Triple) (p : Part) : v.Less (v.next p) := by
  cases p <;> simp [Triple.Less, Triple.next]

theorem next_bound (v : Triple) (p : Part) {N : ℕ} (h : v.major ≤ N ∧ v.minor ≤ N ∧ v.patch ≤ N) :
    (v.next p).major ≤ N + 1 ∧ (v.next p).minor ≤ N + 1 ∧ (v.next p).patch ≤ N + 1 := by
  cases p <;> simp only [Triple.next] <;> omega

theorem release_line (p : Part) : CommandLine ["release".toList, p.word] ∧ plainWords ["release".toList, p.word] = ["release".toList, p.word] ∧
    ¬ AsksDry ["release".toList, p.word] := by
  refine ⟨?_, ?_, ?_⟩
  · intro a ha
    right
    simp only [List.mem_cons, List.not_mem_nil, or_false] at ha
    rcases ha with rfl | rfl
    · exact ⟨by decide, by decide, by decide⟩
    · cases p <;> exact ⟨by decide, by decide, by decide⟩
  · cases p <;> decide
  · cases p <;> simp only [AsksDry] <;> decide

/-- C117: after any series of releases the file says the version that counting gives. -/
theorem c117_history (ps : List Part) (file : List (List Char)) (v : Triple) (hf : VersionFile file v) (N : ℕ)
    (hN : v.major ≤ N ∧ v.minor ≤ N ∧ v.patch ≤ N) (hb : N + ps.length < 2 ^ 63) (log : List (List Char)) :
    ∃ file', ps.foldl (fun f p => (versionMain ["release".toList, p.word] f (some log)).file) (some file) = some file' ∧
      VersionFile file' (ps.foldl Triple.next v) ∧
      versionMain ["-s".toList, "print".toList] (some file') (some log) = ⟨0, (ps.foldl Triple.next v).text, some file'⟩ := by
  induction ps generalizing file v N with
  | nil =>
    refine ⟨file, rfl, hf, ?_⟩
    have hc : CommandLine ["-s".toList, "print".toList] := by
      intro a ha
      simp only [List.mem_cons, List.not_mem_nil, or_false] at ha
      rcases ha with rfl | rfl
      · exact .inl (.inl rfl)
      · exact .inr ⟨by decide, by decide, by decide⟩
    obtain ⟨lf, h1, h2⟩ := c117_print hc (by decide) hf log
    have : lf = [] := by
      rcases h1 with h | h
      · exact h.2
      · exact absurd (.inl (by simp)) h.1
    rw [h2, this, List.append_nil]
    rfl
  | cons p ps ih =>
    rw [List.length_cons] at hb
    obtain ⟨g1, g2, g3⟩ := release_line p
    obtain ⟨lf, file1, -, h2, h3, -⟩ := c117_release g1 p g2 g3 hf (by omega) log
    rw [List.foldl_cons, List.foldl_cons, h2]
    exact ih file1 (v.next p) h3 (N + 1) (next_bound v p hN) (by omega)

/-- C117: the dry run changes no file, whatever is in it. -/
theorem c117_dry {args : List (List Char)} (h : CommandLine args) (hd : AsksDry args) (file log : List (List Char)) :
    (versionMain args (some file) (some log)).file = some file := by
  have hne : args ≠ [] := by rintro rfl; simp [AsksDry] at hd
  obtain ⟨lf, d, e1, -, e3⟩ := versionMain_eq h hne file log
  rw [e1, e3.mpr hd]
  unfold parseCommand
  split
  · rfl
  · simp only
    split_ifs
    · split
      · rfl
      · split <;> rfl
    · split
      · rfl
      · unfold bumpVersion
        split <;> rfl
    · split
      · rfl
      · unfold checkVersion
        split_ifs <;> rfl
    · rfl

/-- C117: the dry run of a release says the version that the release would make, and leaves the file. -/
theorem c117_dry_says {args : List (List Char)} (h : CommandLine args) (p : Part) (hp : plainWords args = ["release".toList, p.word])
    (hd : AsksDry args) {file : List (List Char)} {v : Triple} (hf : VersionFile file v)
    (hb : v.major + 1 < 2 ^ 63 ∧ v.minor + 1 < 2 ^ 63 ∧ v.patch + 1 < 2 ^ 63) (log : List (List Char)) :
    ∃ lf, Ending args lf ∧ versionMain args (some file) (some log) = ⟨0, (v.next p).text ++ lf, some file⟩ := by
  obtain ⟨lf, d, e1, e2, e3⟩ := versionMain_eq h (ne_of_plain hp (by simp)) file log
  refine ⟨lf, e2, ?_⟩
  rw [e1, hp, parseCommand]
  simp only
  rw [if_neg (by decide), if_pos trivial, getVersion_file hf]
  simp only [List.headD_cons]
  have hv : (⟨Nat.toDigits 10 v.major, Nat.toDigits 10 v.minor, Nat.toDigits 10 v.patch⟩ : VersionVars) = varsOf v := rfl
  unfold bumpVersion
  rw [hv, bumpVars_next p v hb, e3.mpr hd]
  simp only [versionText_of]
  rfl

/-- The assumptions are met: a dry run of a minor release of version 2.3.7. -/
example : versionMain ["-d".toList, "release".toList, "minor".toList]
    (some (["#define VERSION_MAJOR 2".toList, "#define VERSION_MINOR 3".toList, "#define VERSION_PATCH 7".toList])) (some [[]]) =
    ⟨0, "2.4.0\n".toList, some (["#define VERSION_MAJOR 2".toList, "#define VERSION_MINOR 3".toList, "#define VERSION_PATCH 7".toList])⟩ := by
  decide +kernel

/-- C117: only `release` changes the file. -/
theorem c117_reading {args : List (List Char)} (h : CommandLine args) (hr : (plainWords args).head? ≠ some "release".toList) (file log : List (List Char)) :
    (versionMain args (some file) (some log)).file = some file := by
  by_cases hne : args = []
  · subst hne; rfl
  obtain ⟨lf, d, e1, -, -⟩ := versionMain_eq h hne file log
  rw [e1]
  unfold parseCommand
  split
  · rfl
  · rename_i action more hw
    rw [hw] at hr
    have hr' : action ≠ "release".toList := by simpa using hr
    simp only
    split_ifs
    · split
      · rfl
      · split <;> rfl
    · split
      · rfl
      · unfold checkVersion
        split_ifs <;> rfl
    · rfl

/-- C117: in whatever file, lines that mention none of the three names stay as they are. -/
theorem c117_lines {args : List (List Char)} (h : CommandLine args) (file log file' : List (List Char))
    (hf : (versionMain args (some file) (some log)).file = some file') :
    List.Forall₂ (fun l l' => l' = l ∨ Mentions "VERSION_MAJOR".toList l ∨ Mentions "VERSION_MINOR".toList l ∨ Mentions "VERSION_PATCH".toList l)
      file file' := by
  have same : some file = some file' → List.Forall₂ (fun l l' => l' = l ∨ Mentions "VERSION_MAJOR".toList l ∨ Mentions "VERSION_MINOR".toList l ∨
      Mentions "VERSION_PATCH".toList l) file file' := by
    intro he
    rw [Option.some.injEq] at he
    subst he
    rw [List.forall₂_same]
    exact fun l _ => .inl rfl
  by_cases hr : (plainWords args).head? = some "release".toList
  swap
  · exact same ((c117_reading h hr file log).symm.trans hf)
  by_cases hne : args = []
  · subst hne; exact same hf
  obtain ⟨lf, d, e1, -, -⟩ := versionMain_eq h hne file log
  rw [e1] at hf
  cases hw : plainWords args with
  | nil => rw [hw] at hr; simp at hr
  | cons action more =>
    rw [hw, List.head?_cons, Option.some.injEq] at hr
    rw [hw, parseCommand] at hf
    simp only [hr] at hf
    rw [if_neg (by decide), if_pos trivial] at hf
    cases hv : getVersion file with
    | none => rw [hv] at hf; exact same hf
    | some v =>
      rw [hv] at hf
      simp only at hf
      unfold bumpVersion at hf
      cases hb : bumpVars (more.headD []) v with
      | none => rw [hb] at hf; exact same hf
      | some w =>
        rw [hb] at hf
        simp only at hf
        cases d with
        | true => exact same hf
        | false =>
          have hc : some (commitVersion w file).2 = some file' := by
            rw [if_neg (by simp)] at hf
            split_ifs at hf <;> exact hf
          rw [Option.some.injEq] at hc
          subst hc
          have step : ∀ (g : List (List Char)) (name value : List Char), name = majorName ∨ name = minorName ∨ name = patchName →
              List.Forall₂ (fun l l' => l' = l ∨ Mentions "VERSION_MAJOR".toList l ∨ Mentions "VERSION_MINOR".toList l ∨
                Mentions "VERSION_PATCH".toList l) file g →
              List.Forall₂ (fun l l' => l' = l ∨ Mentions "VERSION_MAJOR".toList l ∨ Mentions "VERSION_MINOR".toList l ∨
                Mentions "VERSION_PATCH".toList l) file (g.map (commitLine name value)) := by
            intro g name value hn hg
            rw [List.forall₂_map_right_iff]
            refine hg.imp ?_
            intro l l' hl
            rcases hl with rfl | hl
            · by_cases hm : Mentions name l'
              · right
                rcases hn with rfl | rfl | rfl
                · exact .inl hm
                · exact .inr (.inl hm)
                · exact .inr (.inr hm)
              · left
                exact commit_not_mentions value hm
            · exact .inr hl
          have s0 : List.Forall₂ (fun l l' => l' = l ∨ Mentions "VERSION_MAJOR".toList l ∨ Mentions "VERSION_MINOR".toList l ∨
                Mentions "VERSION_PATCH".toList l) file file := by
            rw [List.forall₂_same]
            exact fun l _ => .inl rfl
          have s1 := step file patchName w.patch (.inr (.inr rfl)) s0
          have s2 := step _ minorName w.minor (.inr (.inl rfl)) s1
          have s3 := step _ majorName w.major (.inl rfl) s2
          unfold commitVersion commitPart
          simp only
          split_ifs
          · exact s3
          · exact s2
          · exact s1

/-- C117: `check` succeeds exactly if the first entry of the changelog names the version and no other digits or dots. -/
theorem c117_check {args : List (List Char)} (h : CommandLine args) (hp : plainWords args = ["check".toList]) {file : List (List Char)} {v : Triple}
    (hf : VersionFile file v) (log : List (List Char)) :
    (versionMain args (some file) (some log)).code = 0 ↔
      ∃ before l behind, log = before ++ ("sophiread (".toList ++ l) :: behind ∧ (∀ k ∈ before, ¬ ∃ r, k = "sophiread (".toList ++ r) ∧
        (l.filter fun c => c.isDigit || c == '.') = v.text := by
  obtain ⟨lf, d, e1, -, -⟩ := versionMain_eq h (ne_of_plain hp (by simp)) file log
  have hnil : v.text ≠ [] := by
    unfold Triple.text
    simp
  have key : (versionMain args (some file) (some log)).code = 0 ↔ changelogVersion log = v.text := by
    rw [e1, hp, parseCommand]
    simp only
    rw [if_neg (by decide), if_neg (by decide), if_pos trivial, getVersion_file hf]
    simp only
    rw [show (⟨Nat.toDigits 10 v.major, Nat.toDigits 10 v.minor, Nat.toDigits 10 v.patch⟩ : VersionVars) = varsOf v from rfl]
    unfold checkVersion
    rw [versionText_of]
    split_ifs with hc
    · exact iff_of_true rfl hc
    · exact iff_of_false (by simp) hc
  have hpre : ("sophiread (".toList.filter fun c => c.isDigit || c == '.') = [] := by decide
  rw [key]
  unfold changelogVersion
  constructor
  · intro hc
    split at hc
    · exact absurd hc.symm hnil
    · rename_i l hl
      obtain ⟨h1, before, behind, rfl, h2⟩ := List.find?_eq_some_iff_append.mp hl
      obtain ⟨r, hr⟩ := Option.isSome_iff_exists.mp h1
      have e := after_some hr
      refine ⟨before, r, behind, by rw [e], ?_, ?_⟩
      · rintro k hk ⟨r', rfl⟩
        have := h2 _ hk
        rw [after_append] at this
        simp at this
      · rw [e, List.filter_append, hpre, List.nil_append] at hc
        exact hc
  · rintro ⟨before, l, behind, rfl, h1, h2⟩
    have hfind : (before ++ ("sophiread (".toList ++ l) :: behind).find? (fun l => (after? "sophiread (".toList l).isSome) =
        some ("sophiread (".toList ++ l) := by
      rw [List.find?_eq_some_iff_append]
      refine ⟨by rw [after_append]; rfl, before, behind, rfl, ?_⟩
      intro k hk
      cases hq : after? "sophiread (".toList k with
      | none => rfl
      | some r => exact absurd ⟨r, after_some hq⟩ (h1 k hk)
    rw [hfind]
    simp only
    rw [List.filter_append, hpre, List.nil_append, h2]

/-- C117: with the changelog of the repository, which is empty, `check` fails for every version. -/
theorem c117_false_changelog {file : List (List Char)} {v : Triple} (hf : VersionFile file v) :
    (versionMain ["check".toList] (some file) (some [[]])).code ≠ 0 := by
  have hc : CommandLine ["check".toList] := by
    intro a ha
    simp only [List.mem_cons, List.not_mem_nil, or_false] at ha
    subst ha
    exact .inr ⟨by decide, by decide, by decide⟩
  rw [ne_eq, c117_check hc (by decide) hf]
  rintro ⟨before, l, behind, h, -, -⟩
  cases before with
  | nil => simp at h
  | cons b before => simp at h

/-! ## The number in the header -/

theorem versionNumber_eq (a b c : ℕ) (hb : b < 256) (hc : c < 256) : versionNumber a b c = a * 65536 + b * 256 + c := by
  unfold versionNumber
  have h1 : b <<< 8 < 2 ^ 16 := by rw [Nat.shiftLeft_eq]; omega
  rw [← Nat.shiftLeft_add_eq_or_of_lt h1 a]
  have h2 : a <<< 16 + b <<< 8 = (a * 256 + b) <<< 8 := by simp only [Nat.shiftLeft_eq]; ring
  rw [h2, ← Nat.shiftLeft_add_eq_or_of_lt (by omega : c < 2 ^ 8), Nat.shiftLeft_eq]
  omega

/-- C117: `VERSION_NUMBER` is in the order of the versions as long as minor and patch number are below 256. -/
theorem c117_number_partial (v w : Triple) (hv : v.minor < 256 ∧ v.patch < 256) (hw : w.minor < 256 ∧ w.patch < 256) :
    versionNumber v.major v.minor v.patch < versionNumber w.major w.minor w.patch ↔ v.Less w := by
  rw [versionNumber_eq _ _ _ hv.1 hv.2, versionNumber_eq _ _ _ hw.1 hw.2]
  unfold Triple.Less
  omega

/-- C117: from 256 on it is not: the 256th patch of 2.3 has the number of 2.3.0. -/
theorem c117_false_number : versionNumber 2 3 256 = versionNumber 2 3 0 ∧ (⟨2, 3, 0⟩ : Triple).Less ⟨2, 3, 256⟩ := by
  constructor
  · decide
  · simp [Triple.Less]

/-! ## Other files -/

/-- The lines of `include/version.h` that matter. -/
def exVersionFile (major minor patch : String) : List (List Char) :=
  ["#ifndef VERSION_H".toList, "#define VERSION_H".toList, [], major.toList, minor.toList, patch.toList, "#endif".toList, []]

/-- C117: a remark with a digit makes the release fail after the file has been changed. -/
theorem c117_false_remark : versionMain ["release".toList, "minor".toList]
    (some (exVersionFile "#define VERSION_MAJOR 2" "#define VERSION_MINOR 3 // since 2024" "#define VERSION_PATCH 7")) (some [[]]) =
    ⟨1, [], some (exVersionFile "#define VERSION_MAJOR 2" "#define VERSION_MINOR 32025 // since 2024" "#define VERSION_PATCH 0")⟩ := by
  decide +kernel

/-- C117: a leading zero makes the shell count in octal. -/
theorem c117_false_octal : versionMain ["release".toList, "patch".toList]
    (some (exVersionFile "#define VERSION_MAJOR 2" "#define VERSION_MINOR 3" "#define VERSION_PATCH 010")) (some [[]]) =
    ⟨0, "2.3.9\n".toList, some (exVersionFile "#define VERSION_MAJOR 2" "#define VERSION_MINOR 3" "#define VERSION_PATCH 9")⟩ := by
  decide +kernel

/-- C117: a macro whose name starts with one of the names is destroyed by a release. -/
theorem c117_false_prefix : versionMain ["release".toList, "patch".toList]
    (some (exVersionFile "#define VERSION_MAJOR 2" "#define VERSION_MINOR 3" "#define VERSION_PATCH 0" ++ ["#define VERSION_PATCH_LIMIT 99".toList]))
    (some [[]]) =
    ⟨0, "2.3.1\n".toList, some (exVersionFile "#define VERSION_MAJOR 2" "#define VERSION_MINOR 3" "#define VERSION_PATCH 1" ++
      ["#define VERSION_PATCH 1_LIMIT 99".toList])⟩ := by
  decide +kernel

/-- C117: `grep` does not take the tab for a blank that `sed` does. -/
theorem c117_false_tab : versionMain ["print".toList]
    (some (exVersionFile "#define\tVERSION_MAJOR 2" "#define VERSION_MINOR 3" "#define VERSION_PATCH 0")) (some [[]]) =
    ⟨1, [], some (exVersionFile "#define\tVERSION_MAJOR 2" "#define VERSION_MINOR 3" "#define VERSION_PATCH 0")⟩ := by
  decide +kernel

/-- C117: a tab between name and number is no harm: it is read, and replaced by a blank. -/
theorem c117_tab : versionMain ["release".toList, "minor".toList]
    (some (exVersionFile "#define VERSION_MAJOR 2" "#define VERSION_MINOR\t3" "#define VERSION_PATCH\t7")) (some [[]]) =
    ⟨0, "2.4.0\n".toList, some (exVersionFile "#define VERSION_MAJOR 2" "#define VERSION_MINOR 4" "#define VERSION_PATCH 0")⟩ := by
  decide +kernel

/-- C117: an action after `--` is lost. -/
theorem c117_false_dashes : versionMain ["--".toList, "release".toList]
    (some (exVersionFile "#define VERSION_MAJOR 2" "#define VERSION_MINOR 3" "#define VERSION_PATCH 0")) (some [[]]) =
    ⟨1, usageText, some (exVersionFile "#define VERSION_MAJOR 2" "#define VERSION_MINOR 3" "#define VERSION_PATCH 0")⟩ := by
  decide +kernel

/-! ## Examples -/

theorem not_mentions_of {name line : List Char} (hn : IsName name)
    (h : (match after? defineWord line with | none => true | some r => (after? name (r.dropWhile anyBlank)).isNone) = true) : ¬ Mentions name line := by
  rintro ⟨gap, rest, rfl, hg⟩
  obtain ⟨t, ht⟩ := hn.head
  have k1 := dropWhile_gap anyBlank gap (fun c hc => (anyBlank_iff c).mpr (hg c hc)) 'V' rfl (t ++ rest)
  rw [← List.cons_append, ← ht] at k1
  have e1 : after? defineWord ("#define".toList ++ gap ++ name ++ rest) = some (gap ++ (name ++ rest)) := by
    simp only [List.append_assoc]
    exact after_append _ _
  rw [e1] at h
  simp only [k1.1, after_append] at h
  simp at h

/-- The version file of the repository. -/
theorem exVersion_file : VersionFile (exVersionFile "#define VERSION_MAJOR 2" "#define VERSION_MINOR 3" "#define VERSION_PATCH 0") ⟨2, 3, 0⟩ := by
  refine ⟨⟨["#ifndef VERSION_H".toList, "#define VERSION_H".toList, []], "#define VERSION_MAJOR 2".toList, ["#define VERSION_MINOR 3".toList,
      "#define VERSION_PATCH 0".toList, "#endif".toList, []], rfl, ⟨0, 0, [], by decide, by simp⟩, fun l hl => not_mentions_of major_isName ?_⟩,
    ⟨["#ifndef VERSION_H".toList, "#define VERSION_H".toList, [], "#define VERSION_MAJOR 2".toList], "#define VERSION_MINOR 3".toList,
      ["#define VERSION_PATCH 0".toList, "#endif".toList, []], rfl, ⟨0, 0, [], by decide, by simp⟩, fun l hl => not_mentions_of minor_isName ?_⟩,
    ⟨["#ifndef VERSION_H".toList, "#define VERSION_H".toList, [], "#define VERSION_MAJOR 2".toList, "#define VERSION_MINOR 3".toList],
      "#define VERSION_PATCH 0".toList, ["#endif".toList, []], rfl, ⟨0, 0, [], by decide, by simp⟩, fun l hl => not_mentions_of patch_isName ?_⟩⟩
  all_goals revert l; decide

example : versionMain ["-s".toList, "release".toList, "minor".toList]
    (some (exVersionFile "#define VERSION_MAJOR 2" "#define VERSION_MINOR 3" "#define VERSION_PATCH 5")) (some [[]]) =
    ⟨0, "2.4.0".toList, some (exVersionFile "#define VERSION_MAJOR 2" "#define VERSION_MINOR 4" "#define VERSION_PATCH 0")⟩ := by decide +kernel

example : (⟨2, 3, 0⟩ : Triple).text = "2.3.0".toList := by decide

/-- A command line with an option behind the action. -/
example : CommandLine ["release".toList, "-d".toList, "major".toList] ∧ AsksDry ["release".toList, "-d".toList, "major".toList] := by
  refine ⟨?_, .inl (by simp)⟩
  intro a ha
  simp only [List.mem_cons, List.not_mem_nil, or_false] at ha
  rcases ha with rfl | rfl | rfl
  · exact .inr ⟨by decide, by decide, by decide⟩
  · exact .inl (.inr (.inr (.inl rfl)))
  · exact .inr ⟨by decide, by decide, by decide⟩

/-! ## Parts of the version -/

/-- C117: `print` with a part writes its number. -/
theorem c117_print_part {args : List (List Char)} (h : CommandLine args) (p : Part) (hp : plainWords args = ["print".toList, p.word])
    {file : List (List Char)} {v : Triple} (hf : VersionFile file v) (log : List (List Char)) :
    ∃ lf, Ending args lf ∧ versionMain args (some file) (some log) =
      ⟨0, Nat.toDigits 10 (v.number p) ++ lf, some file⟩ := by
  obtain ⟨lf, d, e1, e2, -⟩ := versionMain_eq h (ne_of_plain hp (by simp)) file log
  refine ⟨lf, e2, ?_⟩
  rw [e1, hp, parseCommand]
  simp only [if_pos, getVersion_file hf, List.headD_cons]
  have e : printVersion lf p.word ⟨Nat.toDigits 10 v.major, Nat.toDigits 10 v.minor, Nat.toDigits 10 v.patch⟩ =
      some (Nat.toDigits 10 (v.number p) ++ lf) := by
    unfold printVersion
    cases p
    · rw [if_neg (by decide), if_pos (by decide)]; rfl
    · rw [if_neg (by decide), if_neg (by decide), if_pos (by decide)]; rfl
    · rw [if_neg (by decide), if_neg (by decide), if_neg (by decide), if_pos (by decide)]; rfl
  rw [e]

/-- C117: another word is refused. -/
theorem c117_print_unknown {args : List (List Char)} (h : CommandLine args) (w : List Char) (more : List (List Char))
    (hp : plainWords args = "print".toList :: w :: more) (hw : ∀ p : Part, w ≠ p.word) (file log : List (List Char)) :
    versionMain args (some file) (some log) = ⟨1, [], some file⟩ := by
  obtain ⟨lf, d, e1, e2, e3⟩ := versionMain_eq h (ne_of_plain hp (by simp)) file log
  have hne : w ≠ [] := (plain_isWord h w (by rw [hp]; simp)).1
  rw [e1, hp, parseCommand]
  simp only [if_pos]
  cases getVersion file with
  | none => rfl
  | some v =>
    have e : printVersion lf w v = none := by
      unfold printVersion
      rw [if_neg hne, if_neg (show w ≠ "major".toList from hw .major), if_neg (show w ≠ "minor".toList from hw .minor),
        if_neg (show w ≠ "patch".toList from hw .patch)]
    simp only [List.headD_cons, e]

/-- A command line that asks for one number, and one that is refused. -/
example : versionMain ["print".toList, "-s".toList, "minor".toList]
      (some (exVersionFile "#define VERSION_MAJOR 2" "#define VERSION_MINOR 3" "#define VERSION_PATCH 5")) (some [[]]) =
    ⟨0, "3".toList, some (exVersionFile "#define VERSION_MAJOR 2" "#define VERSION_MINOR 3" "#define VERSION_PATCH 5")⟩ ∧
    plainWords ["print".toList, "-s".toList, "minor".toList] = ["print".toList, Part.minor.word] ∧
    (∀ p : Part, "build".toList ≠ p.word) := by
  refine ⟨by decide +kernel, by decide, fun p => ?_⟩
  cases p <;> decide

/-! ## Arguments that are several words -/

theorem shellWords_blank (c : Char) (hc : c = ' ' ∨ c = '\t' ∨ c = '\n') (cur l r : List Char) :
    shellWords cur (l ++ c :: r) = shellWords cur (l ++ ' ' :: r) := by
  induction l generalizing cur with
  | nil =>
    rcases hc with rfl | rfl | rfl <;> simp [shellWords]
  | cons d l ih =>
    rw [List.cons_append, List.cons_append, shellWords, shellWords]
    simp only [ih]

theorem versionArgs_plain (a : List Char) (ha : a.head? ≠ some '-') (as : List (List Char)) (s d : Bool) (p : List Char) :
    versionArgs (a :: as) s d p = versionArgs as s d (p ++ ' ' :: a) := by
  have h : ∀ b : List Char, b.head? = some '-' → a ≠ b := fun b hb e => ha (e ▸ hb)
  rw [versionArgs, if_neg, if_neg, if_neg, if_neg ha]
  · exact h _ (by decide)
  · exact not_or.mpr ⟨h _ (by decide), h _ (by decide)⟩
  · exact not_or.mpr ⟨h _ (by decide), h _ (by decide)⟩

/-- The arguments are put into one string that is split again: an argument with a blank, a tab or a newline inside is taken as two. -/
theorem c117_words (a b : List Char) (c : Char) (hc : c = ' ' ∨ c = '\t' ∨ c = '\n') (ha : a.head? ≠ some '-') (hne : a ≠ [])
    (hb : b.head? ≠ some '-') (file log : Option (List (List Char))) : versionMain [a ++ c :: b] file log = versionMain [a, b] file log := by
  have h1 : (a ++ c :: b).head? ≠ some '-' := by
    cases a with
    | nil => exact absurd rfl hne
    | cons x a => exact ha
  unfold versionMain
  rw [if_neg (by simp), if_neg (by simp), versionArgs_plain _ h1, versionArgs_plain _ ha, versionArgs_plain _ hb]
  simp only [versionArgs, List.nil_append]
  rw [show ' ' :: (a ++ c :: b) = (' ' :: a) ++ c :: b from rfl, shellWords_blank c hc]

/-- Tab and newline: `release<newline>minor` releases a minor version. -/
example : versionMain ["release\nminor".toList] (some ["#define VERSION_MAJOR 1".toList, "#define VERSION_MINOR 2".toList,
    "#define VERSION_PATCH 3".toList]) (some []) = versionMain ["release".toList, "minor".toList] (some ["#define VERSION_MAJOR 1".toList,
    "#define VERSION_MINOR 2".toList, "#define VERSION_PATCH 3".toList]) (some []) :=
  c117_words "release".toList "minor".toList '\n' (.inr (.inr rfl)) (by decide) (by decide) (by decide) _ _

end Verif.Props
