import Verif.Lemmas.Text
import Verif.Model.BenchScript
import Verif.Props.Bench
import Verif.Spec.BenchScript

/-! # C121: what the benchmark script reports -/

namespace Verif.Props

open Verif Verif.Spec

/-! ## Names -/

theorem split_first {c : Char} {a b s t : List Char} (ha : c ∉ a) (hb : c ∉ b) (h : a ++ c :: s = b ++ c :: t) : a = b ∧ s = t := by
  induction a generalizing b with
  | nil =>
    rcases b with _ | ⟨y, b⟩
    · simpa using h
    · simp only [List.nil_append, List.cons_append, List.cons.injEq] at h
      exact absurd (by rw [← h.1]; simp) hb
  | cons x a ih =>
    rcases b with _ | ⟨y, b⟩
    · simp only [List.nil_append, List.cons_append, List.cons.injEq] at h
      exact absurd (by rw [h.1]; simp) ha
    · simp only [List.cons_append, List.cons.injEq] at h
      obtain ⟨e1, e2⟩ := ih (fun hm => ha (by simp [hm])) (fun hm => hb (by simp [hm])) h.2
      exact ⟨by rw [h.1, e1], e2⟩

theorem natText_inj {m n : Nat} (h : natText m = natText n) : m = n := by
  rw [← natText_val m, h, natText_val]

theorem natText_no {c : Char} (hc : c.isDigit = false) (n : Nat) : c ∉ natText n := fun h => by
  have := natText_digits n c h
  rw [hc] at this
  exact absurd this (by decide)

theorem splitDir_slash (a b : Path) (hb : '/' ∉ b) : splitDir (a ++ '/' :: b) = (a ++ ['/'], b) := by
  have h1 : (a ++ '/' :: b).reverse = b.reverse ++ '/' :: a.reverse := by simp
  have h2 : ∀ x ∈ b.reverse, decide (x ≠ '/') = true := by
    intro x hx
    have : x ≠ '/' := fun he => hb (by rw [← he]; simpa using hx)
    simpa using this
  unfold splitDir
  rw [h1, List.takeWhile_append_of_pos h2, List.dropWhile_append_of_pos h2]
  simp

theorem splitDir_none (b : Path) (hb : '/' ∉ b) : splitDir b = ([], b) := by
  have h2 : ∀ x ∈ b.reverse, decide (x ≠ '/') = true := by
    intro x hx
    have : x ≠ '/' := fun he => hb (by rw [← he]; simpa using hx)
    simpa using this
  unfold splitDir
  rw [List.takeWhile_eq_self_iff.mpr h2, List.dropWhile_eq_nil_iff.mpr h2]
  simp

theorem dirOf_slash (a b : Path) (hb : '/' ∉ b) : dirOf (a ++ '/' :: b) = a := by
  unfold dirOf
  rw [splitDir_slash _ _ hb]
  simp

/-- The file to compare with, of a file in the directory of the script. -/
theorem baseOf_dir (y ext q : List Char) (hy : '/' ∉ y) (hq : '/' ∉ q) : benchBaseOf ext (benchDir y ++ '/' :: q) = benchBase y ext := by
  have h1 : dirOf (benchDir y ++ '/' :: q) = benchDir y := by
    unfold dirOf
    rw [splitDir_slash _ _ hq]
    simp
  have h2 : (splitDir (benchDir y)).2 = y := by
    have : benchDir y = "result".toList ++ '/' :: y := by
      unfold benchDir
      rw [show "result/".toList = "result".toList ++ ['/'] by decide, List.append_assoc]
      rfl
    rw [this, splitDir_slash _ _ hy]
  unfold benchBaseOf benchBase
  rw [h1, h2]

theorem configs_no : ∀ c ∈ benchConfigs, '.' ∉ c ∧ '/' ∉ c := by decide

theorem configs_nodup : benchConfigs.Nodup := by decide

/-- A result of the script. -/
theorem result_inj {y ext a b : List Char} (ha : '.' ∉ a) (hb : '.' ∉ b) {i j : Nat} (h : benchResult y ext a i = benchResult y ext b j) :
    a = b ∧ i = j := by
  unfold benchResult at h
  have h1 := List.append_cancel_left h
  simp only [List.cons.injEq, true_and] at h1
  have h2 := List.append_cancel_left h1
  simp only [List.cons.injEq, true_and] at h2
  obtain ⟨e1, e2⟩ := split_first ha hb h2
  exact ⟨e1, natText_inj (split_first (natText_no (by decide) i) (natText_no (by decide) j) e2).1⟩

theorem base_ne_result {y ext a : List Char} (ha : a ∈ benchConfigs) (i : Nat) : benchBase y ext ≠ benchResult y ext a i := by
  intro h
  unfold benchBase benchResult at h
  have h1 := List.append_cancel_left h
  simp only [List.cons.injEq, true_and, List.append_assoc] at h1
  have h2 := List.append_cancel_left h1
  rw [show ".verify.".toList ++ ext = '.' :: ("verify".toList ++ '.' :: ext) by simp] at h2
  simp only [List.cons.injEq, true_and] at h2
  have h3 := (split_first (by decide) (configs_no a ha).1 h2).1
  rw [← h3] at ha
  exact absurd ha (by decide)

theorem jobs_paths (y ext : List Char) (n : Nat) : (benchJobs y ext n).map Prod.fst =
    benchBase y ext :: benchConfigs.flatMap fun cfg => (List.range' 1 n).map (benchResult y ext cfg) := by
  simp only [benchJobs, List.map_cons, List.map_flatMap, List.map_map]
  rfl

theorem jobs_nodup (y ext : List Char) (n : Nat) : ((benchJobs y ext n).map Prod.fst).Nodup := by
  rw [jobs_paths, List.nodup_cons]
  constructor
  · intro h
    obtain ⟨c, hc, h⟩ := List.mem_flatMap.mp h
    obtain ⟨i, -, h⟩ := List.mem_map.mp h
    exact base_ne_result hc i h.symm
  · rw [List.nodup_flatMap]
    refine ⟨fun c hc => ?_, ?_⟩
    · refine List.Nodup.map ?_ List.nodup_range'
      intro i j h
      exact (result_inj (configs_no c hc).1 (configs_no c hc).1 h).2
    · refine List.Pairwise.imp_of_mem ?_ configs_nodup
      intro a b ha hb hab p hp hq
      obtain ⟨i, -, hi⟩ := List.mem_map.mp hp
      obtain ⟨j, -, hj⟩ := List.mem_map.mp hq
      exact hab (result_inj (configs_no a ha).1 (configs_no b hb).1 (hi.trans hj.symm)).1

theorem jobs_length (y ext : List Char) (n : Nat) : (benchJobs y ext n).length = 1 + 4 * n := by
  simp [benchJobs, benchConfigs]
  omega

/-- Where the files of the script are. -/
structure IsBenchName (y ext : List Char) (p : Path) : Prop where
  below : "result/".toList <+: p
  ending : '.' :: ext <:+ p
  base : benchBaseOf ext p = benchBase y ext
  dir : dirOf p = benchDir y

theorem base_name (y ext : List Char) (hy : '/' ∉ y) (he : '/' ∉ ext) : IsBenchName y ext (benchBase y ext) := by
  have hq : '/' ∉ y ++ ".verify.".toList ++ ext := by
    simp only [List.mem_append, not_or]
    exact ⟨⟨hy, by decide⟩, he⟩
  refine ⟨?_, ?_, ?_, ?_⟩
  · unfold benchBase benchDir
    rw [List.append_assoc]
    exact List.prefix_append _ _
  · unfold benchBase
    refine ⟨benchDir y ++ '/' :: (y ++ ".verify".toList), ?_⟩
    rw [show ".verify.".toList = ".verify".toList ++ ['.'] by decide]
    simp
  · exact baseOf_dir y ext _ hy hq
  · exact dirOf_slash _ _ hq

theorem result_name (y ext c : List Char) (i : Nat) (hy : '/' ∉ y) (he : '/' ∉ ext) (hc : '/' ∉ c) :
    IsBenchName y ext (benchResult y ext c i) := by
  have hq : '/' ∉ y ++ '.' :: (c ++ '.' :: (natText i ++ '.' :: ext)) := by
    simp only [List.mem_append, List.mem_cons, not_or]
    exact ⟨hy, by decide, hc, by decide, natText_no (by decide) i, by decide, he⟩
  refine ⟨?_, ?_, ?_, ?_⟩
  · unfold benchResult benchDir
    rw [List.append_assoc]
    exact List.prefix_append _ _
  · unfold benchResult
    exact ⟨benchDir y ++ '/' :: (y ++ '.' :: (c ++ '.' :: natText i)), by simp⟩
  · exact baseOf_dir y ext _ hy hq
  · exact dirOf_slash _ _ hq

theorem job_name (y ext : List Char) (n : Nat) (hy : '/' ∉ y) (he : '/' ∉ ext) (p : Path) (hp : p ∈ (benchJobs y ext n).map Prod.fst) :
    IsBenchName y ext p := by
  rw [jobs_paths, List.mem_cons] at hp
  rcases hp with rfl | hp
  · exact base_name y ext hy he
  · obtain ⟨c, hc, h⟩ := List.mem_flatMap.mp hp
    obtain ⟨i, -, rfl⟩ := List.mem_map.mp h
    exact result_name y ext c i hy he (configs_no c hc).2

/-! ## Counting -/

/-- Two files are there and the script finds no difference. -/
def agree (ext : List Char) : Option DiskFile → Option DiskFile → Bool
  | some a, some b => sameResult ext a b
  | _, _ => false

theorem count_eq (ext : List Char) (d : Disk) (ps : List Path) : benchCount ext d ps =
    (ps.countP fun p => (d (benchBaseOf ext p)).isSome,
     ps.countP fun p => (d (benchBaseOf ext p)).isSome && !agree ext (d (benchBaseOf ext p)) (d p)) := by
  induction ps with
  | nil => rfl
  | cons p ps ih =>
    rw [benchCount, ih]
    cases h1 : d (benchBaseOf ext p) with
    | none => simp [h1]
    | some a =>
      cases h2 : d p with
      | none => simp [h1, h2, agree]
      | some b =>
        by_cases hs : sameResult ext a b = true
        · simp [h1, h2, agree, hs]
        · simp only [Bool.not_eq_true] at hs
          simp [h1, h2, agree, hs]

/-- What is said when the files that count are those of the list. -/
theorem verdict_of (y ext : List Char) (d : Disk) (L : List Path) (hL : L.Nodup) (hname : ∀ p ∈ L, IsBenchName y ext p)
    (hsome : ∀ p ∈ L, d p ≠ none) (hbase : benchBase y ext ∈ L)
    (hother : ∀ p, p ∉ L → d p ≠ none → "result/".toList <+: p → '.' :: ext <:+ p → d (benchBaseOf ext p) = none)
    (found : List Path) (hf : ListsResults ext d found) :
    benchVerdict ext d found =
      if (L.countP fun p => !agree ext (d (benchBase y ext)) (d p)) = 0 then .all L.length
      else .mismatched (L.countP fun p => !agree ext (d (benchBase y ext)) (d p)) L.length := by
  have hperm : (found.filter fun p => (d (benchBaseOf ext p)).isSome).Perm L := by
    rw [List.perm_ext_iff_of_nodup (hf.1.filter _) hL]
    intro p
    rw [List.mem_filter, hf.2]
    constructor
    · rintro ⟨⟨h1, h2, h3⟩, h4⟩
      by_contra hp
      rw [hother p hp h1 h2 h3] at h4
      simp at h4
    · intro hp
      have hn := hname p hp
      refine ⟨⟨hsome p hp, hn.below, hn.ending⟩, ?_⟩
      rw [hn.base]
      exact Option.isSome_iff_ne_none.mpr (hsome _ hbase)
  have h1 : (found.countP fun p => (d (benchBaseOf ext p)).isSome) = L.length := by
    rw [List.countP_eq_length_filter]
    exact hperm.length_eq
  have h2 : (found.countP fun p => (d (benchBaseOf ext p)).isSome && !agree ext (d (benchBaseOf ext p)) (d p)) =
      L.countP fun p => !agree ext (d (benchBase y ext)) (d p) := by
    have : (found.countP fun p => (d (benchBaseOf ext p)).isSome && !agree ext (d (benchBaseOf ext p)) (d p)) =
        (found.filter fun p => (d (benchBaseOf ext p)).isSome).countP fun p => !agree ext (d (benchBaseOf ext p)) (d p) := by
      rw [List.countP_filter]
      exact List.countP_congr fun p _ => by simp [and_comm]
    rw [this, hperm.countP_eq]
    exact List.countP_congr fun p hp => by rw [(hname p hp).base]
  have hpos : L.length ≠ 0 := by
    intro h
    rw [List.length_eq_zero_iff.mp h] at hbase
    simp at hbase
  unfold benchVerdict
  simp only [count_eq, h1, h2, if_neg hpos]

/-! ## Runs -/

/-- The runs leave every file as its run leaves it. -/
theorem runs_spec (solve : List GaussRow → F64 × F64) (input : Path) (eff d0 : Path → Option DiskFile)
    (js : List ((Path × List Char) × BenchWorld)) (hnd : (js.map fun j => j.1.1).Nodup)
    (step : ∀ j ∈ js, ∀ d : Disk, d j.1.1 = d0 j.1.1 → ∃ e, mmapMain solve j.2.cuts j.2.fuel j.2.canOpen j.2.fault [input, j.1.1, j.1.2] j.2.env d =
      .ok (some (Function.update d j.1.1 (eff j.1.1), e))) (d : Disk) (hd : ∀ j ∈ js, d j.1.1 = d0 j.1.1) :
    ∃ d', benchRuns solve input js d = .ok (some d') ∧
      (∀ p, p ∈ js.map (fun j => j.1.1) → d' p = eff p) ∧ ∀ p, p ∉ js.map (fun j => j.1.1) → d' p = d p := by
  induction js generalizing d with
  | nil => exact ⟨d, rfl, by simp, by simp⟩
  | cons j js ih =>
    obtain ⟨h1, h2⟩ := List.nodup_cons.mp (by simpa using hnd : (j.1.1 :: js.map fun j => j.1.1).Nodup)
    obtain ⟨e, he⟩ := step j (by simp) d (hd j (by simp))
    have hne : ∀ k ∈ js, k.1.1 ≠ j.1.1 := fun k hk h => h1 (by rw [← h]; exact List.mem_map_of_mem hk)
    obtain ⟨d', i1, i2, i3⟩ := ih h2 (fun k hk => step k (by simp [hk])) (Function.update d j.1.1 (eff j.1.1)) (by
      intro k hk
      rw [Function.update_of_ne (hne k hk)]
      exact hd k (by simp [hk]))
    refine ⟨d', ?_, ?_, ?_⟩
    · rw [benchRuns]
      simp only [bind, Res.bind, he]
      exact i1
    · intro p hp
      by_cases hj : p ∈ js.map fun j => j.1.1
      · exact i2 p hj
      · have hp : p = j.1.1 := by
          simp only [List.map_cons, List.mem_cons] at hp
          exact hp.resolve_right hj
        rw [i3 p hj, hp, Function.update_self]
    · intro p hp
      simp only [List.map_cons, List.mem_cons, not_or] at hp
      rw [i3 p hp.2, Function.update_of_ne hp.1]

/-- What a run writes. -/
def benchWritten (ext : List Char) (v : List Neutron) (old : Option DiskFile) : Option DiskFile :=
  if ext = "csv".toList then
    some (.other ((match old with | some (.other c) => c | _ => []) ++ asciiBytes (csvText v)))
  else if ext = "bin".toList then (v.mapM binRecord).map fun rs => .other (asciiBytes rs.flatten)
  else some (.h5 [("neutrons".toList, mmapColumns v)])

/-- The formats of the program. -/
def IsFormat (ext : List Char) : Prop := ext = "h5".toList ∨ ext = "csv".toList ∨ ext = "bin".toList

/-- Nothing goes wrong in the run: the files can be opened, there is memory, at least two batches a round and enough rounds. -/
structure FairRun (cs : List Chunk) (w : BenchWorld) : Prop where
  open_ : w.canOpen = true
  fault : w.fault = none
  input : w.env.input = some (streamBytes cs)
  memory : w.env.memory = true
  limit : 2 ≤ w.env.limit
  fuel : cs.length ≤ w.fuel

theorem ends_with {ext : List Char} {s : String} (hs : s.toList = '.' :: ext) {p : Path} (h : '.' :: ext <:+ p) : nameEndsWith p s = true := by
  unfold nameEndsWith
  rw [hs]
  exact decide_eq_true h

theorem forall2_unique {α β : Type} {R : α → Res β} {l : List α} {a b : List β} (h1 : List.Forall₂ (fun x e => R x = .ok e) l a)
    (h2 : List.Forall₂ (fun x e => R x = .ok e) l b) : a = b := by
  induction h1 generalizing b with
  | nil => cases h2; rfl
  | cons h _ ih =>
    rcases h2 with _ | ⟨h', h2⟩
    rw [h] at h'
    rw [Res.ok.injEq] at h'
    rw [h', ih h2]

/-- The input need not be writable when it is read into memory. -/
theorem main_writable (solve : List GaussRow → F64 × F64) (cuts : Nat → Cut) (fuel : Nat) (canOpen : Bool) (fault : Option Nat)
    (args : List (List Char)) (env : MmapEnv) (d : Disk) (h : (mmapOptions args[2]?).mmap = false) :
    mmapMain solve cuts fuel canOpen fault args env d = mmapMain solve cuts fuel canOpen fault args { env with writable := true } d := by
  unfold mmapMain mmapInput
  simp only [h]
  rfl

/-- One run of the script that succeeds. -/
theorem run_writes (solve : List GaussRow → F64 × F64) (cs : List Chunk) (hw : ∀ c ∈ cs, c.WellFormed) (hn : ∀ c ∈ cs, c.NoLookAlike)
    (hs : ∀ hs ∈ seenHits true cs, ∀ h ∈ hs, h.spidertime.toNat < 2 ^ 48)
    (es : List (List Neutron)) (hes : List.Forall₂ (fun h e => eventsOf ⟨.gdc, mmapParams, solve⟩ h = .ok e) (seenHits true cs) es)
    (hne : es.flatten ≠ []) (ext : List Char) (hext : IsFormat ext) (input p opt : List Char) (hp : '.' :: ext <:+ p)
    (hopt : (mmapOptions (some opt)).tgdc = true) (w : BenchWorld) (hw' : FairRun cs w)
    (hwr : (mmapOptions (some opt)).mmap = true → w.env.writable = true) (d : Disk)
    (hold : ext = "csv".toList → ∀ f, d p ≠ some (.h5 f)) (f : DiskFile)
    (hf : benchWritten ext (es.flatten.map fun e => { e with tof := e.tofNs }) (d p) = some f) :
    mmapMain solve w.cuts w.fuel w.canOpen w.fault [input, p, opt] w.env d = .ok (some (Function.update d p (some f), .exit 0)) := by
  have hmain : ∃ env : MmapEnv, (env.input = some (streamBytes cs) ∧ env.writable = true ∧ env.memory = true) ∧ 2 ≤ env.limit ∧
      mmapMain solve w.cuts w.fuel w.canOpen w.fault [input, p, opt] w.env d =
        mmapMain solve w.cuts w.fuel w.canOpen w.fault [input, p, opt] env d := by
    by_cases hm : (mmapOptions (some opt)).mmap = true
    · exact ⟨w.env, ⟨hw'.input, hwr hm, hw'.memory⟩, hw'.limit, rfl⟩
    · exact ⟨{ w.env with writable := true }, ⟨hw'.input, rfl, hw'.memory⟩, hw'.limit, main_writable _ _ _ _ _ _ _ _ (by simpa using hm)⟩
  obtain ⟨env, henv, hlim, he⟩ := hmain
  obtain ⟨s, es', h1, h2, h3, h4⟩ := mmapMain_stream solve w.cuts cs [input, p, opt] (by simp) env henv hlim hw hn
    (by simpa [hopt] using hs) w.fuel hw'.fuel
  have h1' : List.Forall₂ (fun h e => eventsOf ⟨.gdc, mmapParams, solve⟩ h = .ok e) (seenHits true cs) es' := by simpa [hopt] using h1
  have heq := forall2_unique h1' hes
  subst heq
  have hg : gathered s.vectors = es'.flatten.map fun e => { e with tof := e.tofNs } := by
    unfold gathered
    rw [h2]
  have hgn : gathered s.vectors ≠ [] := by
    rw [hg]
    simpa using hne
  rw [he, h4, hw'.open_, hw'.fault]
  unfold mmapFinish
  simp only [List.getElem?_cons_succ, List.getElem?_cons_zero]
  rw [if_neg (fun h => hne (h3.mp h))]
  rw [← hg] at hf
  rcases hext with rfl | rfl | rfl
  · have o := ends_with (s := ".h5") (by decide) hp
    obtain ⟨o1, o2⟩ := (nameEndsWith_one p).1 o
    unfold benchWritten at hf
    rw [if_neg (by decide), if_neg (by decide), Option.some.injEq] at hf
    rw [o1, o2, o]
    unfold saveMmapH5
    rw [if_neg hgn]
    simp only [Bool.false_eq_true, if_false, if_true, plainSave, reduceCtorEq, mmapColumns, writeColumns, List.nil_append, List.cons_append]
    rw [← hf]
    rfl
  · have o := ends_with (s := ".csv") (by decide) hp
    rw [o]
    unfold saveCsv
    rw [if_neg hgn]
    simp only [if_true, Bool.not_true, Bool.false_eq_true, if_false]
    have hh := hold rfl
    unfold benchWritten at hf
    rw [if_pos rfl, Option.some.injEq] at hf
    rw [← hf]
    cases hd : d p with
    | none => rfl
    | some g =>
      cases g with
      | h5 g => exact absurd hd (hh g)
      | other c => rfl
  · have o := ends_with (s := ".bin") (by decide) hp
    rw [(nameEndsWith_one p).2 o, o]
    unfold saveBin
    rw [if_neg hgn]
    unfold benchWritten at hf
    rw [if_neg (by decide), if_pos rfl] at hf
    obtain ⟨rs, hr, rfl⟩ := Option.map_eq_some_iff.mp hf
    simp only [Bool.not_true, Bool.false_eq_true, if_false, if_true, hr]
    rfl

theorem job_options : ∀ opt ∈ "verify+tgdc".toList :: benchConfigs, (mmapOptions (some opt)).tgdc = true := by decide +kernel

theorem mem_options {y ext : List Char} {n : Nat} {j : Path × List Char} (h : j ∈ benchJobs y ext n) :
    j.2 ∈ "verify+tgdc".toList :: benchConfigs := by
  simp only [benchJobs, List.mem_cons] at h
  rcases h with rfl | h
  · simp
  · obtain ⟨c, hc, h⟩ := List.mem_flatMap.mp h
    obtain ⟨i, -, rfl⟩ := List.mem_map.mp h
    exact List.mem_cons_of_mem _ hc

theorem mapM_exists {α β : Type} (f : α → Option β) (l : List α) (h : ∀ x ∈ l, f x ≠ none) : ∃ rs, l.mapM f = some rs := by
  induction l with
  | nil => exact ⟨[], rfl⟩
  | cons a l ih =>
    obtain ⟨b, hb⟩ := Option.ne_none_iff_exists'.mp (h a (by simp))
    obtain ⟨rs, hr⟩ := ih fun x hx => h x (by simp [hx])
    exact ⟨b :: rs, by simp [List.mapM_cons, hb, hr]⟩

theorem format_slash {ext : List Char} (h : IsFormat ext) : '/' ∉ ext := by
  rcases h with rfl | rfl | rfl <;> decide

theorem splitDir_slashless (p : Path) : '/' ∉ (splitDir p).2 := by
  unfold splitDir
  intro h
  have := List.mem_takeWhile_imp (List.mem_reverse.mp h)
  simp at this

/-- Only files in the directory of the script are compared with a file of the script. -/
theorem baseOf_job {y ext : List Char} {n : Nat} (hext : IsFormat ext) (hy : '/' ∉ y) {p : Path}
    (h : benchBaseOf ext p ∈ (benchJobs y ext n).map Prod.fst) : dirOf p = benchDir y := by
  rw [← (job_name y ext n hy (format_slash hext) _ h).dir]
  unfold benchBaseOf
  rw [dirOf_slash]
  simp only [List.mem_append, not_or]
  exact ⟨⟨splitDir_slashless _, by decide⟩, format_slash hext⟩

/-- The records of the binary file can be written. -/
def BinFits (es : List (List Neutron)) : Prop := ∀ e ∈ es.flatten, binRecord { e with tof := e.tofNs } ≠ none

theorem written_some {ext : List Char} (hext : IsFormat ext) (es : List (List Neutron)) (hbin : ext = "bin".toList → BinFits es)
    (old : Option DiskFile) : ∃ f, benchWritten ext (es.flatten.map fun e => { e with tof := e.tofNs }) old = some f := by
  unfold benchWritten
  rcases hext with rfl | rfl | rfl
  · exact ⟨_, rfl⟩
  · exact ⟨_, rfl⟩
  · rw [if_neg (by decide), if_pos rfl]
    obtain ⟨rs, hr⟩ := mapM_exists binRecord (es.flatten.map fun e => { e with tof := e.tofNs }) (by
      intro e he
      obtain ⟨e', he', rfl⟩ := List.mem_map.mp he
      exact hbin rfl e' he')
    exact ⟨_, by rw [hr]; rfl⟩

theorem written_same {ext : List Char} (hext : IsFormat ext) (v : List Neutron) (old old' : Option DiskFile)
    (ho : ext = "csv".toList → old = old') (f : DiskFile) (hf : benchWritten ext v old = some f) :
    agree ext (benchWritten ext v old) (benchWritten ext v old') = true := by
  have he : benchWritten ext v old' = benchWritten ext v old := by
    unfold benchWritten
    split_ifs with h
    · rw [ho h]
    · rfl
    · rfl
  rw [he, hf]
  unfold benchWritten at hf
  show sameResult ext f f = true
  unfold sameResult
  rcases hext with rfl | rfl | rfl
  · rw [if_neg (by decide), if_neg (by decide), Option.some.injEq] at hf
    rw [if_pos rfl, ← hf]
    simp
  · rw [if_pos rfl, Option.some.injEq] at hf
    rw [if_neg (by decide), ← hf]
    simp
  · rw [if_neg (by decide), if_pos rfl] at hf
    obtain ⟨rs, -, rfl⟩ := Option.map_eq_some_iff.mp hf
    rw [if_neg (by decide)]
    simp

/-- All runs of the script succeed. -/
theorem runs_all (solve : List GaussRow → F64 × F64) (cs : List Chunk) (hw : ∀ c ∈ cs, c.WellFormed) (hn : ∀ c ∈ cs, c.NoLookAlike)
    (hs : ∀ hs ∈ seenHits true cs, ∀ h ∈ hs, h.spidertime.toNat < 2 ^ 48)
    (es : List (List Neutron)) (hes : List.Forall₂ (fun h e => eventsOf ⟨.gdc, mmapParams, solve⟩ h = .ok e) (seenHits true cs) es)
    (hne : es.flatten ≠ []) (ext : List Char) (hext : IsFormat ext) (hbin : ext = "bin".toList → BinFits es) (y : List Char) (hy : '/' ∉ y)
    (input : Path) (itr : Nat) (js : List ((Path × List Char) × BenchWorld)) (hjs : js.map Prod.fst = benchJobs y ext itr)
    (hfair : ∀ j ∈ js, FairRun cs j.2 ∧ j.2.env.writable = true) (d : Disk)
    (hold : ext = "csv".toList → ∀ p ∈ (benchJobs y ext itr).map Prod.fst, ∀ f, d p ≠ some (.h5 f)) :
    ∃ d', benchRuns solve input js d = .ok (some d') ∧
      (∀ p ∈ (benchJobs y ext itr).map Prod.fst, d' p = benchWritten ext (es.flatten.map fun e => { e with tof := e.tofNs }) (d p)) ∧
      ∀ p, p ∉ (benchJobs y ext itr).map Prod.fst → d' p = d p := by
  have hmap : js.map (fun j => j.1.1) = (benchJobs y ext itr).map Prod.fst := by
    rw [← hjs, List.map_map]
    rfl
  have hjob : ∀ j ∈ js, j.1 ∈ benchJobs y ext itr := fun j hj => by rw [← hjs]; exact List.mem_map_of_mem hj
  obtain ⟨d', h1, h2, h3⟩ := runs_spec solve input (fun p => benchWritten ext (es.flatten.map fun e => { e with tof := e.tofNs }) (d p)) d js
    (by rw [hmap]; exact jobs_nodup y ext itr) (by
      intro j hj d1 hd1
      have hp := List.mem_map_of_mem (f := Prod.fst) (hjob j hj)
      obtain ⟨f, hf⟩ := written_some hext es hbin (d j.1.1)
      refine ⟨.exit 0, ?_⟩
      rw [hf]
      exact run_writes solve cs hw hn hs es hes hne ext hext input j.1.1 j.1.2
        (job_name y ext itr hy (format_slash hext) _ hp).ending (job_options _ (mem_options (hjob j hj))) j.2
        (hfair j hj).1 (fun _ => (hfair j hj).2) d1 (by
          intro hc f
          rw [hd1]
          exact hold hc _ hp f) f (by rw [hd1]; exact hf)) d (fun _ _ => rfl)
  rw [hmap] at h2 h3
  exact ⟨d', h1, h2, h3⟩

/-- C121: if nothing goes wrong and there are events, the script reports that all results agree, for every format, number of repetitions,
schedule of the threads and limit of batches.  The file compared with is counted too.  For text the files that are there, which are
continued, must be the same; other files with the extension must be in directories without a file to compare with. -/
theorem c121_agree (solve : List GaussRow → F64 × F64) (cs : List Chunk) (hw : ∀ c ∈ cs, c.WellFormed) (hn : ∀ c ∈ cs, c.NoLookAlike)
    (hs : ∀ hs ∈ seenHits true cs, ∀ h ∈ hs, h.spidertime.toNat < 2 ^ 48)
    (es : List (List Neutron)) (hes : List.Forall₂ (fun h e => eventsOf ⟨.gdc, mmapParams, solve⟩ h = .ok e) (seenHits true cs) es)
    (hne : es.flatten ≠ []) (ext : List Char) (hext : IsFormat ext) (hbin : ext = "bin".toList → BinFits es) (y : List Char) (hy : '/' ∉ y)
    (input : Path) (itr : Nat) (js : List ((Path × List Char) × BenchWorld)) (hjs : js.map Prod.fst = benchJobs y ext itr)
    (hfair : ∀ j ∈ js, FairRun cs j.2 ∧ j.2.env.writable = true) (d : Disk) (old : Option DiskFile)
    (hold : ext = "csv".toList → (∀ f, old ≠ some (.h5 f)) ∧ ∀ p ∈ (benchJobs y ext itr).map Prod.fst, d p = old)
    (hother : ∀ p, p ∉ (benchJobs y ext itr).map Prod.fst → d p ≠ none → "result/".toList <+: p → '.' :: ext <:+ p →
      dirOf p ≠ benchDir y ∧ d (benchBaseOf ext p) = none) :
    ∃ d', benchRuns solve input js d = .ok (some d') ∧ ∀ found, ListsResults ext d' found → benchVerdict ext d' found = .all (1 + 4 * itr) := by
  obtain ⟨d', h1, h2, h3⟩ := runs_all solve cs hw hn hs es hes hne ext hext hbin y hy input itr js hjs hfair d (by
    intro hc p hp f
    rw [(hold hc).2 p hp]
    exact (hold hc).1 f)
  have hb : benchBase y ext ∈ (benchJobs y ext itr).map Prod.fst := by rw [jobs_paths]; simp
  refine ⟨d', h1, fun found hf => ?_⟩
  rw [verdict_of y ext d' _ (jobs_nodup y ext itr) (job_name y ext itr hy (format_slash hext)) (by
    intro p hp
    obtain ⟨f, hf⟩ := written_some hext es hbin (d p)
    rw [h2 p hp, hf]
    simp) hb (by
    intro p hp hd hpre hsuf
    rw [h3 p hp] at hd
    obtain ⟨g1, g2⟩ := hother p hp hd hpre hsuf
    by_cases hm : benchBaseOf ext p ∈ (benchJobs y ext itr).map Prod.fst
    · exact absurd (baseOf_job hext hy hm) g1
    · rw [h3 _ hm, g2]) found hf]
  rw [if_pos, List.length_map, jobs_length]
  rw [List.countP_eq_zero]
  intro p hp
  obtain ⟨f, hf⟩ := written_some hext es hbin (d (benchBase y ext))
  rw [h2 p hp, h2 _ hb, written_same hext _ _ _ (fun hc => by rw [(hold hc).2 p hp, (hold hc).2 _ hb]) f hf]
  simp

/-- The results of more repetitions, beyond those of fewer. -/
theorem more_count (y ext : List Char) (n1 n2 : Nat) (h : n1 ≤ n2) (P : Path → Bool)
    (hold : ∀ p ∈ (benchJobs y ext n1).map Prod.fst, P p = false)
    (hnew : ∀ p ∈ (benchJobs y ext n2).map Prod.fst, p ∉ (benchJobs y ext n1).map Prod.fst → P p = true) :
    ((benchJobs y ext n2).map Prod.fst).countP P = 4 * (n2 - n1) := by
  have hc : ∀ c ∈ benchConfigs, ((List.range' 1 n2).map (benchResult y ext c)).countP P = n2 - n1 := by
    intro c hc
    have hin : ∀ i ∈ List.range' 1 n1, benchResult y ext c i ∈ (benchJobs y ext n1).map Prod.fst := by
      intro i hi
      rw [jobs_paths]
      exact List.mem_cons_of_mem _ (List.mem_flatMap.mpr ⟨c, hc, List.mem_map_of_mem hi⟩)
    have hsplit : List.range' 1 n2 = List.range' 1 n1 ++ List.range' (1 + n1) (n2 - n1) := by
      rw [List.range'_append_1]
      congr 1
      omega
    rw [hsplit, List.map_append, List.countP_append]
    have e1 : ((List.range' 1 n1).map (benchResult y ext c)).countP P = 0 := by
      rw [List.countP_eq_zero]
      intro p hp
      obtain ⟨i, hi, rfl⟩ := List.mem_map.mp hp
      simp [hold _ (hin i hi)]
    have e2 : ((List.range' (1 + n1) (n2 - n1)).map (benchResult y ext c)).countP P =
        ((List.range' (1 + n1) (n2 - n1)).map (benchResult y ext c)).length := by
      rw [List.countP_eq_length]
      intro p hp
      obtain ⟨i, hi, rfl⟩ := List.mem_map.mp hp
      have hi' := List.mem_range'_1.mp hi
      refine hnew _ ?_ ?_
      · rw [jobs_paths]
        exact List.mem_cons_of_mem _ (List.mem_flatMap.mpr ⟨c, hc, List.mem_map_of_mem (List.mem_range'_1.mpr (by omega))⟩)
      · rw [jobs_paths, List.mem_cons]
        rintro (hb | hm)
        · exact base_ne_result hc i hb.symm
        · obtain ⟨c', hc', hm⟩ := List.mem_flatMap.mp hm
          obtain ⟨k, hk, hm⟩ := List.mem_map.mp hm
          have := (result_inj (configs_no c' hc').1 (configs_no c hc).1 hm).2
          have hk' := List.mem_range'_1.mp hk
          omega
    rw [e1, e2]
    simp
  have hb : P (benchBase y ext) = false := hold _ (by rw [jobs_paths]; simp)
  rw [jobs_paths, List.countP_cons, hb, List.countP_flatMap]
  have : benchConfigs.map (List.countP P ∘ fun cfg => (List.range' 1 n2).map (benchResult y ext cfg)) = benchConfigs.map fun _ => n2 - n1 :=
    List.map_congr_left fun c hcm => hc c hcm
  rw [this]
  simp [benchConfigs]
  omega

/-- C121 is false for text when there are results of fewer repetitions: every new file is reported, although all runs found the same, since
the old ones are continued. -/
theorem c121_false_more (solve : List GaussRow → F64 × F64) (cs : List Chunk) (hw : ∀ c ∈ cs, c.WellFormed) (hn : ∀ c ∈ cs, c.NoLookAlike)
    (hs : ∀ hs ∈ seenHits true cs, ∀ h ∈ hs, h.spidertime.toNat < 2 ^ 48)
    (es : List (List Neutron)) (hes : List.Forall₂ (fun h e => eventsOf ⟨.gdc, mmapParams, solve⟩ h = .ok e) (seenHits true cs) es)
    (hne : es.flatten ≠ []) (y : List Char) (hy : '/' ∉ y) (input : Path) (before itr : Nat) (hlt : before < itr)
    (js : List ((Path × List Char) × BenchWorld)) (hjs : js.map Prod.fst = benchJobs y "csv".toList itr)
    (hfair : ∀ j ∈ js, FairRun cs j.2 ∧ j.2.env.writable = true) (d : Disk) (old : Bytes) (hold : old ≠ [])
    (hin : ∀ p ∈ (benchJobs y "csv".toList before).map Prod.fst, d p = some (.other old))
    (hout : ∀ p, p ∉ (benchJobs y "csv".toList before).map Prod.fst → "result/".toList <+: p → ".csv".toList <:+ p → d p = none) :
    ∃ d', benchRuns solve input js d = .ok (some d') ∧
      ∀ found, ListsResults "csv".toList d' found → benchVerdict "csv".toList d' found = .mismatched (4 * (itr - before)) (1 + 4 * itr) := by
  have hext : IsFormat "csv".toList := Or.inr (Or.inl rfl)
  have hsub : ∀ p ∈ (benchJobs y "csv".toList itr).map Prod.fst, d p = some (.other old) ∨
      p ∉ (benchJobs y "csv".toList before).map Prod.fst ∧ d p = none := by
    intro p hp
    by_cases hm : p ∈ (benchJobs y "csv".toList before).map Prod.fst
    · exact Or.inl (hin p hm)
    · have hnm := job_name y "csv".toList itr hy (by decide) p hp
      exact Or.inr ⟨hm, hout p hm hnm.below (by simpa using hnm.ending)⟩
  obtain ⟨d', h1, h2, h3⟩ := runs_all solve cs hw hn hs es hes hne _ hext (fun h => absurd h (by decide)) y hy input itr js hjs hfair d (by
    intro _ p hp f
    rcases hsub p hp with h | ⟨-, h⟩ <;> rw [h] <;> simp)
  have hb : benchBase y "csv".toList ∈ (benchJobs y "csv".toList itr).map Prod.fst := by rw [jobs_paths]; simp
  have hb1 : benchBase y "csv".toList ∈ (benchJobs y "csv".toList before).map Prod.fst := by rw [jobs_paths]; simp
  have hle : ∀ p ∈ (benchJobs y "csv".toList before).map Prod.fst, p ∈ (benchJobs y "csv".toList itr).map Prod.fst := by
    intro p hp
    rw [jobs_paths, List.mem_cons] at hp ⊢
    rcases hp with hp | hp
    · exact Or.inl hp
    · obtain ⟨c, hc, hp⟩ := List.mem_flatMap.mp hp
      obtain ⟨i, hi, rfl⟩ := List.mem_map.mp hp
      have hi' := List.mem_range'_1.mp hi
      exact Or.inr (List.mem_flatMap.mpr ⟨c, hc, List.mem_map_of_mem (List.mem_range'_1.mpr (by omega))⟩)
  refine ⟨d', h1, fun found hf => ?_⟩
  rw [verdict_of y _ d' _ (jobs_nodup y _ itr) (job_name y _ itr hy (by decide)) (by
    intro p hp
    obtain ⟨f, hf⟩ := written_some hext es (fun h => absurd h (by decide)) (d p)
    rw [h2 p hp, hf]
    simp) hb (by
    intro p hp hd hpre hsuf
    rw [h3 p hp] at hd
    exact absurd (hout p (fun hm => hp (hle p hm)) hpre (by simpa using hsuf)) hd) found hf]
  have hcount := more_count y "csv".toList before itr hlt.le
    (fun p => !agree "csv".toList (d' (benchBase y "csv".toList)) (d' p)) (by
      intro p hp
      obtain ⟨f, hf⟩ := written_some hext es (fun h => absurd h (by decide)) (d (benchBase y "csv".toList))
      simp only [h2 p (hle p hp), h2 _ hb]
      rw [written_same hext _ _ _ (fun _ => by rw [hin p hp, hin _ hb1]) f hf]
      rfl) (by
      intro p hp hnot
      have hd : d p = none := by
        rcases hsub p hp with h | ⟨-, h⟩
        · have hnm := job_name y "csv".toList itr hy (by decide) p hp
          exact hout p hnot hnm.below (by simpa using hnm.ending)
        · exact h
      simp only [h2 p hp, h2 _ hb, hd, hin _ hb1]
      generalize es.flatten.map (fun e : Neutron => { e with tof := e.tofNs }) = v
      have e1 : benchWritten "csv".toList v (some (.other old)) = some (.other (old ++ asciiBytes (csvText v))) := rfl
      have e2 : benchWritten "csv".toList v none = some (.other (asciiBytes (csvText v))) := rfl
      rw [e1, e2]
      show (!sameResult "csv".toList (.other (old ++ asciiBytes (csvText v))) (.other (asciiBytes (csvText v)))) = true
      unfold sameResult
      rw [if_neg (by decide)]
      simp only
      rw [if_neg (by decide), Bool.not_eq_true', decide_eq_false_iff_not]
      intro he
      have hl := congrArg List.length he
      rw [List.length_append] at hl
      exact hold (List.length_eq_zero_iff.mp (by omega)))
  rw [hcount, if_neg (by omega), List.length_map, jobs_length]

/-- C121: if the input cannot be read nothing is written, and the script says what it would say of the files that were there. -/
theorem c121_unread (solve : List GaussRow → F64 × F64) (input : Path) (js : List ((Path × List Char) × BenchWorld))
    (hin : ∀ j ∈ js, j.2.env.input = none) (d : Disk) : benchRuns solve input js d = .ok (some d) := by
  induction js with
  | nil => rfl
  | cons j js ih =>
    rw [benchRuns]
    have h1 : mmapMain solve j.2.cuts j.2.fuel j.2.canOpen j.2.fault [input, j.1.1, j.1.2] j.2.env d = .ok (some (d, .exit 1)) := by
      unfold mmapMain mmapInput
      rw [hin j (by simp)]
      rfl
    simp only [bind, Res.bind, h1]
    exact ih fun k hk => hin k (by simp [hk])

/-- C121: without an input and without earlier files the script says that there is nothing to compare. -/
theorem c121_nothing (ext : List Char) (d : Disk) (h : ∀ p, "result/".toList <+: p → '.' :: ext <:+ p → d p = none) (found : List Path)
    (hf : ListsResults ext d found) : benchVerdict ext d found = .nothing := by
  have : found = [] := by
    rw [List.eq_nil_iff_forall_not_mem]
    intro p hp
    obtain ⟨h1, h2, h3⟩ := (hf.2 p).mp hp
    exact h1 (h p h2 h3)
  rw [this]
  rfl

/-- C121 is false if the input cannot be read and equal files are there: no run finds anything, and the script reports that all results
agree. -/
theorem c121_false_stale (solve : List GaussRow → F64 × F64) (input : Path) (y : List Char) (hy : '/' ∉ y) (itr : Nat)
    (js : List ((Path × List Char) × BenchWorld)) (hin : ∀ j ∈ js, j.2.env.input = none) (f : PlainFile) (d : Disk)
    (hd : ∀ p, d p = if p ∈ (benchJobs y "h5".toList itr).map Prod.fst then some (.h5 f) else none) :
    ∃ d', benchRuns solve input js d = .ok (some d') ∧
      ∀ found, ListsResults "h5".toList d' found → benchVerdict "h5".toList d' found = .all (1 + 4 * itr) := by
  refine ⟨d, c121_unread solve input js hin d, fun found hf => ?_⟩
  have hb : benchBase y "h5".toList ∈ (benchJobs y "h5".toList itr).map Prod.fst := by rw [jobs_paths]; simp
  rw [verdict_of y _ d _ (jobs_nodup y _ itr) (job_name y _ itr hy (by decide)) (by
    intro p hp
    rw [hd p, if_pos hp]
    simp) hb (by
    intro p hp hn
    rw [hd p, if_neg hp] at hn
    exact absurd rfl hn) found hf, if_pos, List.length_map, jobs_length]
  rw [List.countP_eq_zero]
  intro p hp
  rw [hd p, hd (benchBase y _), if_pos hp, if_pos hb]
  show ¬ (!sameResult "h5".toList (.h5 f) (.h5 f)) = true
  unfold sameResult
  rw [if_pos rfl]
  simp

theorem configs_mmap : ∀ c ∈ benchConfigs, (c ∈ benchConfigs.take 2 ↔ (mmapOptions (some c)).mmap = false) := by decide +kernel

theorem base_reads : (mmapOptions (some "verify+tgdc".toList)).mmap = false := by decide +kernel

/-- C121 is false for an input that may only be read: half of the runs fail, and the script reports that all results agree. -/
theorem c121_false_readonly (solve : List GaussRow → F64 × F64) (cs : List Chunk) (hw : ∀ c ∈ cs, c.WellFormed) (hn : ∀ c ∈ cs, c.NoLookAlike)
    (hs : ∀ hs ∈ seenHits true cs, ∀ h ∈ hs, h.spidertime.toNat < 2 ^ 48)
    (es : List (List Neutron)) (hes : List.Forall₂ (fun h e => eventsOf ⟨.gdc, mmapParams, solve⟩ h = .ok e) (seenHits true cs) es)
    (hne : es.flatten ≠ []) (ext : List Char) (hext : IsFormat ext) (hbin : ext = "bin".toList → BinFits es) (y : List Char) (hy : '/' ∉ y)
    (input : Path) (itr : Nat) (js : List ((Path × List Char) × BenchWorld)) (hjs : js.map Prod.fst = benchJobs y ext itr)
    (hfair : ∀ j ∈ js, FairRun cs j.2 ∧ j.2.env.writable = false) (d : Disk)
    (hd : ∀ p, "result/".toList <+: p → '.' :: ext <:+ p → d p = none) :
    ∃ d', benchRuns solve input js d = .ok (some d') ∧ ∀ found, ListsResults ext d' found → benchVerdict ext d' found = .all (1 + 2 * itr) := by
  have hmap : js.map (fun j => j.1.1) = (benchJobs y ext itr).map Prod.fst := by
    rw [← hjs, List.map_map]
    rfl
  have hjob : ∀ j ∈ js, j.1 ∈ benchJobs y ext itr := fun j hj => by rw [← hjs]; exact List.mem_map_of_mem hj
  have hnone : ∀ p ∈ (benchJobs y ext itr).map Prod.fst, d p = none := fun p hp =>
    hd p (job_name y ext itr hy (format_slash hext) p hp).below (job_name y ext itr hy (format_slash hext) p hp).ending
  obtain ⟨f, hf⟩ := written_some hext es hbin none
  -- the files that are written
  let L : List Path := benchBase y ext :: (benchConfigs.take 2).flatMap fun cfg => (List.range' 1 itr).map (benchResult y ext cfg)
  have hsplit : (benchJobs y ext itr).map Prod.fst =
      L ++ (benchConfigs.drop 2).flatMap fun cfg => (List.range' 1 itr).map (benchResult y ext cfg) := by
    rw [jobs_paths]
    show _ = benchBase y ext :: (_ ++ _)
    rw [← List.flatMap_append, List.take_append_drop]
  have hLn : L.Nodup := by
    have := jobs_nodup y ext itr
    rw [hsplit] at this
    exact (List.nodup_append.mp this).1
  have hLj : ∀ p ∈ L, p ∈ (benchJobs y ext itr).map Prod.fst := fun p hp => by rw [hsplit]; exact List.mem_append_left _ hp
  have hopt : ∀ j ∈ benchJobs y ext itr, (j.1 ∈ L ↔ (mmapOptions (some j.2)).mmap = false) := by
    intro j hj
    simp only [benchJobs, List.mem_cons] at hj
    rcases hj with rfl | hj
    · exact iff_of_true (by simp [L]) base_reads
    · obtain ⟨c, hc, hj⟩ := List.mem_flatMap.mp hj
      obtain ⟨i, hi, rfl⟩ := List.mem_map.mp hj
      have key : benchResult y ext c i ∈ L ↔ c ∈ benchConfigs.take 2 := by
        constructor
        · intro h
          rcases List.mem_cons.mp h with h | h
          · exact absurd h.symm (base_ne_result hc i)
          · obtain ⟨c', hc', h⟩ := List.mem_flatMap.mp h
            obtain ⟨k, -, h⟩ := List.mem_map.mp h
            rw [← (result_inj (configs_no c' (List.mem_of_mem_take hc')).1 (configs_no c hc).1 h).1]
            exact hc'
        · exact fun h => List.mem_cons_of_mem _ (List.mem_flatMap.mpr ⟨c, h, List.mem_map_of_mem hi⟩)
      simp only
      rw [key]
      exact configs_mmap c hc
  obtain ⟨d', h1, h2, h3⟩ := runs_spec solve input (fun p => if p ∈ L then some f else none) d js
    (by rw [hmap]; exact jobs_nodup y ext itr) (by
      intro j hj d1 hd1
      have hp := List.mem_map_of_mem (f := Prod.fst) (hjob j hj)
      by_cases hm : j.1.1 ∈ L
      · refine ⟨.exit 0, ?_⟩
        rw [if_pos hm]
        refine run_writes solve cs hw hn hs es hes hne ext hext input j.1.1 j.1.2
          (job_name y ext itr hy (format_slash hext) _ hp).ending (job_options _ (mem_options (hjob j hj))) j.2
          (hfair j hj).1 (fun h => ?_) d1 (by
            intro hc f
            rw [hd1, hnone _ hp]
            simp) f (by rw [hd1, hnone _ hp]; exact hf)
        rw [(hopt _ (hjob j hj)).mp hm] at h
        exact absurd h (by decide)
      · refine ⟨.exit 1, ?_⟩
        have hmm : (mmapOptions (some j.1.2)).mmap = true := by
          by_contra h
          exact hm ((hopt _ (hjob j hj)).mpr (by simpa using h))
        rw [if_neg hm, show (none : Option DiskFile) = d1 j.1.1 by rw [hd1, hnone _ hp], Function.update_eq_self]
        unfold mmapMain mmapInput
        simp only [List.getElem?_cons_succ, List.getElem?_cons_zero, hmm, if_true, (hfair j hj).2, (hfair j hj).1.input]
        rfl) d (fun _ _ => rfl)
  rw [hmap] at h2 h3
  have hb : benchBase y ext ∈ L := by simp [L]
  have hin : ∀ p ∈ L, d' p = some f := fun p hp => by rw [h2 p (hLj p hp), if_pos hp]
  refine ⟨d', h1, fun found hfo => ?_⟩
  rw [verdict_of y ext d' L hLn (fun p hp => job_name y ext itr hy (format_slash hext) p (hLj p hp)) (fun p hp => by rw [hin p hp]; simp) hb (by
    intro p hp hne' hpre hsuf
    exfalso
    apply hne'
    by_cases hm : p ∈ (benchJobs y ext itr).map Prod.fst
    · rw [h2 p hm, if_neg hp]
    · rw [h3 p hm, hd p hpre hsuf]) found hfo, if_pos]
  · congr 1
    simp [L, benchConfigs]
    omega
  · rw [List.countP_eq_zero]
    intro p hp
    have := written_same hext (es.flatten.map fun e => { e with tof := e.tofNs }) none none (fun _ => rfl) f hf
    rw [hf] at this
    rw [hin p hp, hin _ hb, this]
    simp

/-- The events of the example of C85. -/
def exMappedEvents : List (List Neutron) :=
  [[⟨.fin 279, .fin 24, .fin 5, .fin 10, 1⟩], [⟨.fin 391, .fin 24, .fin 25, .fin 10, 1⟩]]

theorem exMapped_events : List.Forall₂ (fun h e => eventsOf ⟨.gdc, mmapParams, noSolve⟩ h = .ok e) (seenHits true exMapped) exMappedEvents := by
  decide +kernel

theorem exMapped_fits : BinFits exMappedEvents := by
  unfold BinFits
  decide +kernel

/-- A run in which nothing goes wrong. -/
def exWorld : BenchWorld := ⟨fun _ => .halves true 1 .whole .whole, 2, true, none, ⟨some (streamBytes exMapped), true, true, 100000⟩⟩

/-- The script can be run on the example, with three repetitions. -/
example : ((benchJobs ['a'] "h5".toList 3).map fun j => (j, exWorld)).map Prod.fst = benchJobs ['a'] "h5".toList 3 ∧
    FairRun exMapped exWorld ∧ exWorld.env.writable = true ∧ exMappedEvents.flatten ≠ [] :=
  ⟨by rw [List.map_map]; exact List.map_id _, ⟨rfl, rfl, rfl, rfl, by decide, by decide⟩, rfl, by decide⟩

/-- The names that the script uses, for one repetition. -/
example : (benchJobs ['a'] "h5".toList 1).map (fun j => String.ofList j.1) =
    ["result/a/a.verify.h5", "result/a/a.stream+tbb+tgdc.1.h5", "result/a/a.stream+verify+tgdc.1.h5", "result/a/a.mmap+tbb+tgdc.1.h5",
     "result/a/a.mmap+verify+tgdc.1.h5"] := by decide +kernel

/-- Speeds of an earlier run of the script are not compared with anything. -/
example : benchBaseOf "csv".toList "result/tbb.csv".toList = "result/result.verify.csv".toList := by decide +kernel

/-- C121: the report does not tell that the results are right.  However the threads are scheduled and however often the runs are repeated,
all results agree for the example of C86, and the times of flight, 125 ns and 625 ns, are 3125 and 15625 in the file compared with. -/
theorem c121_false_right (itr : Nat) (input : Path) (js : List ((Path × List Char) × BenchWorld))
    (hjs : js.map Prod.fst = benchJobs ['a'] "h5".toList itr) (hfair : ∀ j ∈ js, FairRun exMapped j.2 ∧ j.2.env.writable = true) :
    ∃ d', benchRuns noSolve input js (fun _ => none) = .ok (some d') ∧
      (∀ found, ListsResults "h5".toList d' found → benchVerdict "h5".toList d' found = .all (1 + 4 * itr)) ∧
      (seenHits true exMapped).flatten.map Hit.tofNs = [some (.fin 125), some (.fin 625)] ∧
      d' "result/a/a.verify.h5".toList = some (.h5 [("neutrons".toList,
        [(['x'], .doubles [.fin 279, .fin 391]), (['y'], .doubles [.fin 24, .fin 24]), ("tof".toList, .doubles [.fin 3125, .fin 15625]),
         ("nHits".toList, .ints [1, 1]), ("tot".toList, .doubles [.fin 10, .fin 10])])]) := by
  have hs : ∀ hs ∈ seenHits true exMapped, ∀ h ∈ hs, h.spidertime.toNat < 2 ^ 48 := by decide +kernel
  have hw : ∀ c ∈ exMapped, c.WellFormed := by decide
  obtain ⟨d', h1, h2⟩ := c121_agree noSolve exMapped hw exMapped_noLookAlike hs exMappedEvents exMapped_events (by decide) "h5".toList
    (Or.inl rfl) (fun h => absurd h (by decide)) ['a'] (by decide) input itr js hjs hfair (fun _ => none) none
    (fun h => absurd h (by decide)) (fun p _ h => absurd rfl h)
  obtain ⟨d'', g1, g2, -⟩ := runs_all noSolve exMapped hw exMapped_noLookAlike hs exMappedEvents exMapped_events (by decide) "h5".toList
    (Or.inl rfl) (fun h => absurd h (by decide)) ['a'] (by decide) input itr js hjs hfair (fun _ => none) (fun h => absurd h (by decide))
  rw [h1, Res.ok.injEq, Option.some.injEq] at g1
  subst g1
  refine ⟨d', h1, h2, by decide +kernel, ?_⟩
  have hb : benchBase ['a'] "h5".toList ∈ (benchJobs ['a'] "h5".toList itr).map Prod.fst := by rw [jobs_paths]; simp
  have := g2 _ hb
  rw [show "result/a/a.verify.h5".toList = benchBase ['a'] "h5".toList by decide, this]
  decide +kernel

/-! ### What the comparison compares -/

theorem squeezed_blank {b : BitVec 8} (hb : IsBlank b) (bs : Bytes) :
    squeezed (b :: bs) = match squeezed bs with
      | [] => []
      | c :: cs => if c = 0x0A#8 ∨ c = 0x20#8 then c :: cs else 0x20#8 :: c :: cs := by
  rw [squeezed, if_pos (by exact hb)]
  cases squeezed bs <;> rfl

theorem squeezed_congr (a : Bytes) {s t : Bytes} (h : squeezed s = squeezed t) : squeezed (a ++ s) = squeezed (a ++ t) := by
  induction a with
  | nil => exact h
  | cons x a ih => rw [List.cons_append, List.cons_append, squeezed, squeezed, ih]

theorem squeezed_twice {x y : BitVec 8} (hx : IsBlank x) (hy : IsBlank y) (b : Bytes) : squeezed (x :: y :: b) = squeezed (y :: b) := by
  rw [squeezed_blank hx, squeezed_blank hy]
  cases squeezed b with
  | nil => rfl
  | cons c cs =>
    simp only
    by_cases h : c = 0x0A#8 ∨ c = 0x20#8
    · rw [if_pos h]
      simp only
      rw [if_pos h]
    · rw [if_neg h]
      simp

theorem squeezed_any {x y : BitVec 8} (hx : IsBlank x) (hy : IsBlank y) (b : Bytes) : squeezed (x :: b) = squeezed (y :: b) := by
  rw [squeezed_blank hx, squeezed_blank hy]

theorem blankChange_squeezed {s t : Bytes} (h : BlankChange s t) : squeezed s = squeezed t := by
  cases h with
  | run a b hx hy hz => exact squeezed_congr a (by rw [squeezed_twice hy hz]; exact squeezed_any hx hz b)
  | line a b hx =>
    refine squeezed_congr a ?_
    rw [squeezed_blank hx, squeezed, if_neg (by decide)]
    simp
  | last a hx =>
    conv_rhs => rw [← List.append_nil t]
    refine squeezed_congr t ?_
    rw [squeezed_blank hx]
    rfl

theorem blank_cons (x : BitVec 8) {s t : Bytes} (h : Relation.EqvGen BlankChange s t) : Relation.EqvGen BlankChange (x :: s) (x :: t) := by
  induction h with
  | rel s t h =>
    refine .rel _ _ ?_
    cases h with
    | run a b hx hy hz => exact .run (x :: a) b hx hy hz
    | line a b hx => exact .line (x :: a) b hx
    | last a hx => exact .last (x :: t) hx
  | refl => exact .refl _
  | symm _ _ _ ih => exact ih.symm
  | trans _ _ _ _ _ i j => exact i.trans _ _ _ j

theorem blank_squeezed (s : Bytes) : Relation.EqvGen BlankChange s (squeezed s) := by
  induction s with
  | nil => exact .refl _
  | cons b s ih =>
    by_cases hb : IsBlank b
    · rw [squeezed_blank hb]
      refine (blank_cons b ih).trans _ _ _ ?_
      have h20 : IsBlank 0x20#8 := .inl rfl
      cases squeezed s with
      | nil => exact .rel _ _ (.last [] hb)
      | cons c cs =>
        simp only
        split_ifs with h
        · rcases h with rfl | rfl
          · exact .rel _ _ (.line [] cs hb)
          · exact (Relation.EqvGen.rel _ _ (.run [] cs h20 hb h20)).symm
        · exact (Relation.EqvGen.rel _ _ (.run [] (c :: cs) hb h20 h20)).trans _ _ _
            (Relation.EqvGen.rel _ _ (.run [] (c :: cs) h20 h20 h20)).symm
    · rw [squeezed, if_neg (by exact hb)]
      exact blank_cons b ih

/-- C121: two results count as equal exactly if they are HDF5 files of the same content, for `h5`; if they differ in blanks only, for
`bin`; and if they have the same bytes for the other extensions. -/
theorem c121_same_iff (ext : List Char) (a b : DiskFile) :
    sameResult ext a b = true ↔ (ext = "h5".toList ∧ ∃ f, a = .h5 f ∧ b = .h5 f) ∨
      (ext = "bin".toList ∧ ∃ f g, a = .other f ∧ b = .other g ∧ Relation.EqvGen BlankChange f g) ∨
      (ext ≠ "h5".toList ∧ ext ≠ "bin".toList ∧ ∃ f, a = .other f ∧ b = .other f) := by
  have key : ∀ f g, squeezed f = squeezed g ↔ Relation.EqvGen BlankChange f g := by
    intro f g
    constructor
    · intro h
      exact (blank_squeezed f).trans _ _ _ (h ▸ (blank_squeezed g).symm)
    · intro h
      induction h with
      | rel _ _ h => exact blankChange_squeezed h
      | refl => rfl
      | symm _ _ _ ih => exact ih.symm
      | trans _ _ _ _ _ i j => exact i.trans j
  have hne : "h5".toList ≠ "bin".toList := by decide
  unfold sameResult
  by_cases h1 : ext = "h5".toList
  · subst h1
    rw [if_pos rfl]
    simp only [hne, false_and, true_and, ne_eq, not_true_eq_false, or_false]
    cases a <;> cases b <;> simp
    exact eq_comm
  · rw [if_neg h1]
    by_cases h2 : ext = "bin".toList
    · simp only [h2, hne.symm, false_and, false_or, true_and, ne_eq, not_true_eq_false, and_false, or_false, if_true]
      cases a <;> cases b <;> simp [key]
    · simp only [h1, h2, false_and, false_or, true_and, ne_eq, not_false_eq_true, if_false]
      cases a <;> cases b <;> simp
      exact eq_comm

/-- Binary results that differ in blanks only, and ones that do not. -/
example : sameResult "bin".toList (.other [0x41#8, 0x20#8, 0x09#8, 0x42#8]) (.other [0x41#8, 0x0D#8, 0x42#8]) = true ∧
    sameResult "bin".toList (.other [0x41#8, 0x20#8, 0x42#8]) (.other [0x41#8, 0x42#8]) = false := by
  decide +kernel

end Verif.Props
