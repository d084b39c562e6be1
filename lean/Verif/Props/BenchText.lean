import Verif.Props.Bench
import Verif.Props.Describe
import Verif.Spec.BenchText

/-! # C86, text: the table can be read back -/

namespace Verif.Props

open Verif Verif.Spec

theorem ascii_read (l : List Char) (h : ∀ c ∈ l, c.toNat < 256) : fileText (asciiBytes l) = l := by
  unfold fileText asciiBytes
  rw [List.map_map]
  conv_rhs => rw [← List.map_id l]
  refine List.map_congr_left fun c hc => ?_
  show Char.ofNat (BitVec.ofNat 8 c.toNat).toNat = c
  rw [BitVec.toNat_ofNat, Nat.mod_eq_of_lt (h c hc), Char.ofNat_toNat]

theorem digit_small {c : Char} (h : c.isDigit = true) : c.toNat < 256 := by
  rw [Char.isDigit_iff_toNat] at h
  have : '9'.toNat = 57 := rfl
  omega

theorem double_small (q : ℚ) : ∀ c ∈ doubleText (.fin q), c.toNat < 256 := by
  intro c hc
  by_contra hn
  refine text_no_sep ?_ ?_ ?_ ?_ ?_ q hc
  · by_contra h
    exact hn (digit_small (by simpa using h))
  all_goals
    rintro rfl
    exact hn (by decide)

theorem nat_small (n : Nat) : ∀ c ∈ natText n, c.toNat < 256 := fun c hc => digit_small (natText_digits n c hc)

/-- A line of the table without its end. -/
def eventLine (x y t c : ℚ) (n : Nat) : List Char :=
  doubleText (.fin x) ++ ',' :: doubleText (.fin y) ++ ',' :: doubleText (.fin t) ++ ',' :: natText n ++ ',' :: doubleText (.fin c)

theorem eventLine_read (x y t c : ℚ) (n : Nat) :
    eventRow? (fields ',' (eventLine x y t c n)) = some (printedValue x, printedValue y, printedValue t, (n : Int), printedValue c) := by
  unfold eventLine
  simp only [List.append_assoc, List.cons_append]
  rw [fields_append _ (double_comma _), fields_append _ (double_comma _), fields_append _ (double_comma _), fields_append _ (nat_comma _),
    fields_single (double_comma _)]
  have hi : readInt? (natText n) = some (n : Int) := by
    have := readInt_intText n
    unfold intText at this
    rw [if_neg (by omega)] at this
    simpa using this
  simp only [eventRow?, readDecimal_doubleText, hi]

theorem eventLine_chars (x y t c : ℚ) (n : Nat) : ∀ k ∈ eventLine x y t c n, k ≠ '\n' ∧ k.toNat < 256 := by
  have hd : ∀ q : ℚ, '\n' ∉ doubleText (.fin q) := fun q =>
    text_no_sep (by decide) (by decide) (by decide) (by decide) (by decide) q
  have hn : '\n' ∉ natText n := not_mem_digits (by decide) (natText_digits n)
  have key : ∀ (l : List Char) (k : Char), '\n' ∉ l → k ∈ l → (∀ c ∈ l, c.toNat < 256) → k ≠ '\n' ∧ k.toNat < 256 :=
    fun l k h1 h2 h3 => ⟨fun h => h1 (h ▸ h2), h3 k h2⟩
  intro k hk
  unfold eventLine at hk
  simp only [List.mem_append, List.mem_cons, List.append_assoc, List.cons_append] at hk
  rcases hk with hk | rfl | hk | rfl | hk | rfl | hk | rfl | hk
  · exact key _ k (hd x) hk (double_small x)
  · decide
  · exact key _ k (hd y) hk (double_small y)
  · decide
  · exact key _ k (hd t) hk (double_small t)
  · decide
  · exact key _ k hn hk (nat_small n)
  · decide
  · exact key _ k (hd c) hk (double_small c)

/-- What is written of an event in the table. -/
def WrittenRow (e : Neutron) (r : ℚ × ℚ × ℚ × Int × ℚ) : Prop :=
  Printed e.x r.1 ∧ Printed e.y r.2.1 ∧ Printed (F64.mul (F64.mul e.tof (F64.ofRat 25)) (F64.ofRat 25)) r.2.2.1 ∧ r.2.2.2.1 = e.nHits ∧
    Printed e.tot r.2.2.2.2

theorem table_read (es : List Neutron) (hf : ∀ e ∈ es, e.x.isFinite = true ∧ e.y.isFinite = true ∧
      (F64.mul (F64.mul e.tof (F64.ofRat 25)) (F64.ofRat 25)).isFinite = true ∧ e.tot.isFinite = true) :
    ∃ rows, readTable? "X,Y,TOF (ns),Nhits, TOT".toList eventRow? (fileText (asciiBytes ("X,Y,TOF (ns),Nhits, TOT\n".toList ++
        es.flatMap fun e => doubleText e.x ++ ',' :: doubleText e.y ++
          ',' :: doubleText (F64.mul (F64.mul e.tof (F64.ofRat 25)) (F64.ofRat 25)) ++ ',' :: natText e.nHits ++
          ',' :: doubleText e.tot ++ ['\n']))) = some rows ∧ List.Forall₂ WrittenRow es rows := by
  have hq : ∀ e ∈ es, ∃ q : ℚ × ℚ × ℚ × ℚ × Nat, e.x = .fin q.1 ∧ e.y = .fin q.2.1 ∧
      F64.mul (F64.mul e.tof (F64.ofRat 25)) (F64.ofRat 25) = .fin q.2.2.1 ∧ e.tot = .fin q.2.2.2.1 ∧ e.nHits = q.2.2.2.2 := by
    intro e he
    obtain ⟨h1, h2, h3, h4⟩ := hf e he
    obtain ⟨a, ha⟩ := finite_fin h1
    obtain ⟨b, hb⟩ := finite_fin h2
    obtain ⟨c, hc⟩ := finite_fin h3
    obtain ⟨d, hd⟩ := finite_fin h4
    exact ⟨(a, b, c, d, e.nHits), ha, hb, hc, hd, rfl⟩
  obtain ⟨qs, hqs⟩ : ∃ qs : List (ℚ × ℚ × ℚ × ℚ × Nat), List.Forall₂ (fun e q => e.x = .fin q.1 ∧ e.y = .fin q.2.1 ∧
      F64.mul (F64.mul e.tof (F64.ofRat 25)) (F64.ofRat 25) = .fin q.2.2.1 ∧ e.tot = .fin q.2.2.2.1 ∧ e.nHits = q.2.2.2.2) es qs := by
    clear hf
    induction es with
    | nil => exact ⟨[], .nil⟩
    | cons e es ih =>
      obtain ⟨q, h⟩ := hq e (by simp)
      obtain ⟨qs, hs⟩ := ih (fun e he => hq e (by simp [he]))
      exact ⟨q :: qs, .cons h hs⟩
  clear hf hq
  have htext : (es.flatMap fun e => doubleText e.x ++ ',' :: doubleText e.y ++
          ',' :: doubleText (F64.mul (F64.mul e.tof (F64.ofRat 25)) (F64.ofRat 25)) ++ ',' :: natText e.nHits ++
          ',' :: doubleText e.tot ++ ['\n']) =
      (qs.map fun q => eventLine q.1 q.2.1 q.2.2.1 q.2.2.2.1 q.2.2.2.2 ++ ['\n']).flatten := by
    induction hqs with
    | nil => rfl
    | cons h _ ih =>
      obtain ⟨h1, h2, h3, h4, h5⟩ := h
      rw [List.flatMap_cons, ih, List.map_cons, List.flatten_cons, h1, h2, h3, h4, h5]
      rfl
  rw [htext]
  have hhead : "X,Y,TOF (ns),Nhits, TOT\n".toList = "X,Y,TOF (ns),Nhits, TOT".toList ++ ['\n'] := by decide
  rw [ascii_read, hhead]
  · refine ⟨_, readTable_rows _ eventRow? (fun q : ℚ × ℚ × ℚ × ℚ × Nat => eventLine q.1 q.2.1 q.2.2.1 q.2.2.2.1 q.2.2.2.2) _ qs (by decide)
      (fun q _ hm => (eventLine_chars _ _ _ _ _ _ hm).1 rfl) (fun q _ => eventLine_read _ _ _ _ _), ?_⟩
    rw [List.forall₂_map_right_iff]
    refine hqs.imp ?_
    rintro e q ⟨h1, h2, h3, h4, h5⟩
    refine ⟨?_, ?_, ?_, ?_, ?_⟩
    · rw [h1]; exact printed_fin _
    · rw [h2]; exact printed_fin _
    · rw [h3]; exact printed_fin _
    · simp only [h5]
    · rw [h4]; exact printed_fin _
  · intro c hc
    rcases List.mem_append.mp hc with hc | hc
    · have : ∀ c ∈ "X,Y,TOF (ns),Nhits, TOT\n".toList, c.toNat < 256 := by decide
      exact this c hc
    · obtain ⟨l, hl, hc⟩ := List.mem_flatten.mp hc
      obtain ⟨q, -, rfl⟩ := List.mem_map.mp hl
      rcases List.mem_append.mp hc with hc | hc
      · exact (eventLine_chars _ _ _ _ _ _ hc).2
      · rw [List.mem_singleton.mp hc]
        decide

/-- C86, text: the bytes of a new file can be read as a table with one row for every event, in order.  Missing: the time is 25 times
too long (`c86_tof`) and only six digits of the doubles are there; a file that was there before is not replaced (`c86_false_csv`). -/
theorem c86_csv_read_partial (solve : List GaussRow → F64 × F64) (cuts : Nat → Cut) (cs : List Chunk) (input out : List Char)
    (rest : List (List Char)) (hout : nameEndsWith out ".csv" = true) (env : MmapEnv)
    (henv : env.input = some (streamBytes cs) ∧ env.writable = true ∧ env.memory = true)
    (hlen : 2 ≤ env.limit) (hw : ∀ c ∈ cs, c.WellFormed) (hn : ∀ c ∈ cs, c.NoLookAlike)
    (hs : ∀ hs ∈ seenHits (mmapOptions rest[0]?).tgdc cs, ∀ h ∈ hs, h.spidertime.toNat < 2 ^ 48)
    (fuel : Nat) (hfuel : cs.length ≤ fuel) (fault : Option Nat) (d : Disk) (hold : d out = none) :
    ∃ es d', List.Forall₂ (fun h e => eventsOf ⟨.gdc, mmapParams, solve⟩ h = .ok e)
        (seenHits (mmapOptions rest[0]?).tgdc cs) es ∧
      mmapMain solve cuts fuel true fault (input :: out :: rest) env d = .ok (some (d', .exit 0)) ∧
      (es.flatten ≠ [] → (∀ e ∈ es.flatten, e.x.isFinite = true ∧ e.y.isFinite = true ∧
          (F64.mul (F64.mul e.tof (F64.ofRat 25)) (F64.ofRat 25)).isFinite = true ∧ e.tot.isFinite = true) →
        ∃ b rows, d' out = some (.other b) ∧
          readTable? "X,Y,TOF (ns),Nhits, TOT".toList eventRow? (fileText b) = some rows ∧ List.Forall₂ WrittenRow es.flatten rows) := by
  obtain ⟨es, d', h1, h2, -, h4⟩ := c86_csv_partial solve cuts cs input out rest hout env henv hlen hw hn hs fuel hfuel fault d []
    (Or.inr ⟨hold, rfl⟩)
  refine ⟨es, d', h1, h2, fun hne hf => ?_⟩
  obtain ⟨rows, r1, r2⟩ := table_read es.flatten hf
  refine ⟨_, rows, ?_, r1, r2⟩
  rw [h4 hne, Function.update_self, List.nil_append]

example : (fileOf "e.csv" (exRun exMapped "e.csv" "tgdc" fun _ => none)).bind (fun f => match f with
      | .other b => readTable? "X,Y,TOF (ns),Nhits, TOT".toList eventRow? (fileText b)
      | _ => none) = some [(279, 24, 3125, 1, 10), (391, 24, 15625, 1, 10)] := by
  decide +kernel

end Verif.Props
