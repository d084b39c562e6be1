import Verif.Spec.Arrival
import Verif.Props.AnyFile
import Verif.Props.EndToEnd
import Verif.Props.ReducerMain

/-! # C98: the images of the automatic reducer do not depend on when its files arrive -/

namespace Verif.Props

open Verif Verif.Spec

/-! ### Times -/

theorem timesG_append (t : Times) (a b : List U64) : timesG t (a ++ b) = timesG (timesG t a) b := by
  unfold timesG; rw [List.foldl_append]

theorem global_not_trigger {w : U64} (h : IsGlobalPacket w) : ¬ IsTriggerPacket w := by
  intro h'
  unfold IsGlobalPacket kind field at h
  unfold IsTriggerPacket field at h'
  omega

theorem nextG_low {w : U64} (h : IsLowerHalf w) (t : Times) : nextG w t = { t with low := field w 16 32 } := by
  unfold nextG
  rw [if_neg (global_not_trigger h.1), if_pos h.1, if_pos h.2]

theorem nextG_keeps {w : U64} (h : ¬ IsLowerHalf w) (t : Times) : (nextG w t).low = t.low := by
  unfold nextG
  by_cases h1 : IsTriggerPacket w
  · rw [if_pos h1]
  · rw [if_neg h1]
    by_cases h2 : IsGlobalPacket w
    · rw [if_pos h2, if_neg (fun h3 => h ⟨h2, h3⟩)]
      split_ifs <;> rfl
    · rw [if_neg h2]

theorem nextG_high {w : U64} (h : IsUpperHalf w) (t : Times) (hv : field w 16 16 * 2 ^ 32 + t.low ≠ 0) :
    nextG w t = { t with gdc := field w 16 16 * 2 ^ 32 + t.low } := by
  unfold nextG
  rw [if_neg (global_not_trigger h.1), if_pos h.1, if_neg (by rw [h.2]; decide), if_pos ⟨h.2, hv⟩]

theorem timesG_keeps (b : List U64) (h : ∀ w ∈ b, ¬ IsLowerHalf w) (t : Times) : (timesG t b).low = t.low := by
  induction b generalizing t with
  | nil => rfl
  | cons w b ih =>
    rw [timesG_cons, ih (fun v hv => h v (by simp [hv])), nextG_keeps (h w (by simp))]

theorem nextG_agree (w : U64) (t t' : Times) (h1 : t.gdc = t'.gdc) (h2 : t.low = t'.low) :
    (nextG w t).gdc = (nextG w t').gdc ∧ (nextG w t).low = (nextG w t').low := by
  unfold nextG
  rw [h1, h2]
  split_ifs <;> exact ⟨by first | rfl | exact h1, by first | rfl | exact h2⟩

theorem timesG_agree (c : List U64) (t t' : Times) (h1 : t.gdc = t'.gdc) (h2 : t.low = t'.low) :
    (timesG t c).gdc = (timesG t' c).gdc ∧ (timesG t c).low = (timesG t' c).low := by
  induction c generalizing t t' with
  | nil => exact ⟨h1, h2⟩
  | cons w c ih =>
    rw [timesG_cons, timesG_cons]
    obtain ⟨g1, g2⟩ := nextG_agree w t t' h1 h2
    exact ih _ _ g1 g2

/-- After a global time and a trigger, nothing is left of the times before. -/
theorem timesG_gives {ws : List U64} (h : GivesTimes ws) (t t' : Times) : timesG t ws = timesG t' ws := by
  obtain ⟨a, lo, b, hi, c, tr, d, rfl, hlo, hb, hhi, hv, htr⟩ := h
  have hlow : ∀ t, (timesG (nextG lo (timesG t a)) b).low = field lo 16 32 := by
    intro t
    rw [timesG_keeps b hb, nextG_low hlo]
  have hgdc : ∀ t, (nextG hi (timesG (nextG lo (timesG t a)) b)).gdc = field hi 16 16 * 2 ^ 32 + field lo 16 32 ∧
      (nextG hi (timesG (nextG lo (timesG t a)) b)).low = field lo 16 32 := by
    intro t
    rw [nextG_high hhi _ (by rw [hlow]; exact hv)]
    simp only [hlow, and_self]
  obtain ⟨g1, g2⟩ := timesG_agree c _ _ ((hgdc t).1.trans (hgdc t').1.symm) ((hgdc t).2.trans (hgdc t').2.symm)
  have htr' : ∀ u u' : Times, u.gdc = u'.gdc → u.low = u'.low → nextG tr u = nextG tr u' := by
    intro u u' e1 e2
    unfold nextG
    rw [if_pos htr, if_pos htr, e1, e2]
  simp only [timesG_append, timesG_cons]
  rw [htr' _ _ g1 g2]

theorem hitsG_agree (chip : Int) (ws : List U64) (t t' : Times)
    (h : ∀ a w b, ws = a ++ w :: b → IsHitPacket w → timesG t a = timesG t' a) : hitsG chip t ws = hitsG chip t' ws := by
  have key : ∀ i ∈ List.range ws.length, IsHitPacket (ws.getD i 0) → timesG t (ws.take i) = timesG t' (ws.take i) := by
    intro i hi hh
    rw [List.mem_range] at hi
    refine h _ _ (ws.drop (i + 1)) ?_ hh
    have e : ws.getD i 0 = ws[i] := by simp [hi]
    rw [e, List.getElem_cons_drop, List.take_append_drop]
  have hidx : hitIndicesG t ws = hitIndicesG t' ws := by
    unfold hitIndicesG
    apply List.filter_congr
    intro i hi
    by_cases hh : IsHitPacket (ws.getD i 0)
    · rw [key i hi hh]
    · simp only [hh, false_and]
  unfold hitsG
  rw [hidx]
  apply List.map_congr_left
  intro i hi
  unfold hitIndicesG at hi
  rw [List.mem_filter] at hi
  rw [key i hi.1 (by simpa using (of_decide_eq_true hi.2).1)]

/-- The hits of chunks whose hit packets all come after a global time and a trigger. -/
theorem chunkHits_agree (cs : List Chunk) (p : List U64) (t t' : Times)
    (h : ∀ a w b, p ++ cs.flatMap Chunk.packets = a ++ w :: b → p.length ≤ a.length → IsHitPacket w → GivesTimes a) :
    chunkHits .gdc (timesG t p) cs = chunkHits .gdc (timesG t' p) cs := by
  induction cs generalizing p with
  | nil => rfl
  | cons k ks ih =>
    simp only [chunkHits]
    rw [← timesG_append, ← timesG_append]
    refine congrArg₂ List.cons ?_ ?_
    · apply hitsG_agree
      intro a w b e hw
      rw [← timesG_append, ← timesG_append]
      refine timesG_gives (h (p ++ a) w (b ++ ks.flatMap Chunk.packets) ?_ (by simp) hw) _ _
      rw [List.flatMap_cons, e]
      simp only [List.append_assoc, List.cons_append]
    · apply ih
      intro a w b e hl hw
      refine h a w b ?_ ?_ hw
      · rw [← e, List.flatMap_cons, List.append_assoc]
      · rw [List.length_append] at hl; omega

theorem perChunk_selfDated (data : Bytes) (h : SelfDated data) (c : Clock) (hc : c.timer.toNat < 2 ^ 32) :
    perChunk .gdc c (announced (wordsOf data)) = hitsOfFile data := by
  rw [perChunk_hits .gdc c hc]
  refine chunkHits_agree (announced (wordsOf data)) [] c.times ⟨0, 0, 0⟩ ?_
  intro a w b e _ hw
  exact h a w b e hw

/-! ### Images -/

theorem createImages_output (sr : F64) (edges : List F64) (mode : String) (bs bs' : List EventBatch)
    (h : outputOf bs = outputOf bs') : createImages sr edges mode bs = createImages sr edges mode bs' := by
  have hent : ∀ b b' : EventBatch, (b.batch.hits, b.neutrons) = (b'.batch.hits, b'.neutrons) →
      entriesOf mode b = entriesOf mode b' := by
    intro b b' e
    injection e with e1 e2
    unfold entriesOf
    rw [e1, e2]
  have hloop : ∀ (bs bs' : List EventBatch) (d : Int) (im : Stack), outputOf bs = outputOf bs' →
      createLoop sr edges mode d im bs = createLoop sr edges mode d im bs' := by
    intro bs
    induction bs with
    | nil =>
      intro bs' d im e
      cases bs' with
      | nil => rfl
      | cons b' bs' => simp [outputOf] at e
    | cons b bs ih =>
      intro bs' d im e
      cases bs' with
      | nil => simp [outputOf] at e
      | cons b' bs' =>
        unfold outputOf at e
        rw [List.map_cons, List.map_cons] at e
        injection e with e1 e2
        simp only [createLoop]
        rw [hent b b' e1]
        simp only [bind]
        congr 1
        funext es
        congr 1
        funext im'
        exact ih bs' d im' e2
  have hnil : bs = [] ↔ bs' = [] := by
    have := congrArg List.length h
    simp only [outputOf, List.length_map] at this
    rw [← List.length_eq_zero_iff, this, List.length_eq_zero_iff]
  unfold createImages
  simp only [hnil]
  split_ifs
  · rfl
  · rfl
  · rfl
  · simp only [bind]
    congr 1
    funext d
    congr 1
    funext im
    exact hloop bs bs' d im h

/-- The images of a file, when there are any. -/
theorem images_output (x : RedCtx) (data : Bytes) (c c' : Clock) (im : Stack) (hi : x.images data c = .ok (im, c')) :
    ¬ Overrun data ∧ ∃ bs v, createImages x.sr x.edges x.tofMode bs = .ok im ∧ outputOf bs = v ∧
      evAll ⟨.gdc, x.params, x.solve⟩ (perChunk .gdc c (announced (wordsOf data))) = .ok v ∧
      c' = clockAfter .gdc c (announced (wordsOf data)) := by
  have hno : ¬ Overrun data := by
    intro ho
    unfold RedCtx.images at hi
    rw [chunk_overrun _ data ho] at hi
    simp [bind, Res.bind] at hi
  refine ⟨hno, ?_⟩
  have hc := chunk_any ⟨.gdc, x.params, x.solve⟩ data hno c
  unfold RedCtx.images at hi
  simp only [bind] at hi
  cases he : chunkEvents ⟨.gdc, x.params, x.solve⟩ data c with
  | throws m => rw [he] at hi; simp [Res.bind] at hi
  | ub u => rw [he] at hi; simp [Res.bind] at hi
  | ok r =>
    rw [he] at hi hc
    simp only [Res.bind] at hi
    simp only [chunkOutput, Res.bind] at hc
    cases hv : evAll ⟨.gdc, x.params, x.solve⟩ (perChunk .gdc c (announced (wordsOf data))) with
    | throws m => rw [hv] at hc; simp at hc
    | ub u => rw [hv] at hc; simp at hc
    | ok v =>
      rw [hv] at hc
      simp only [Res.ok.injEq, Prod.mk.injEq] at hc
      cases hm : createImages x.sr x.edges x.tofMode r.1 with
      | throws m => rw [hm] at hi; simp at hi
      | ub u => rw [hm] at hi; simp at hi
      | ok im' =>
        rw [hm] at hi
        simp only [Res.ok.injEq, Prod.mk.injEq] at hi
        obtain ⟨rfl, rfl⟩ := hi
        exact ⟨r.1, v, hm, hc.1, rfl, hc.2⟩

/-- C98: the images of a file that dates its own hits do not depend on the timestamps that earlier files left. -/
theorem c98_images (x : RedCtx) (data : Bytes) (h : SelfDated data) (c₁ c₁' c₂ c₂' : Clock) (im₁ im₂ : Stack)
    (h1 : c₁.timer.toNat < 2 ^ 32) (h2 : c₂.timer.toNat < 2 ^ 32) (e1 : x.images data c₁ = .ok (im₁, c₁'))
    (e2 : x.images data c₂ = .ok (im₂, c₂')) : im₁ = im₂ := by
  obtain ⟨-, bs1, v1, a1, a2, a3, -⟩ := images_output x data c₁ c₁' im₁ e1
  obtain ⟨-, bs2, v2, b1, b2, b3, -⟩ := images_output x data c₂ c₂' im₂ e2
  rw [perChunk_selfDated data h c₁ h1] at a3
  rw [perChunk_selfDated data h c₂ h2, a3] at b3
  injection b3 with b3
  have := createImages_output x.sr x.edges x.tofMode bs1 bs2 (by rw [a2, b2, b3])
  rw [a1, b1] at this
  injection this

/-! ### Runs -/

theorem clockAfter_timer (c : Clock) (hc : c.timer.toNat < 2 ^ 32) (cs : List Chunk) :
    (clockAfter .gdc c cs).timer.toNat < 2 ^ 32 := by
  induction cs generalizing c with
  | nil => exact hc
  | cons k ks ih => exact ih _ (runGdc_spec (headerChipId k.header) k.packets c hc).2.1

/-- The images on record are those of their data, for timestamps that are possible. -/
def Recorded (x : RedCtx) (log : List RedEvent) : Prop :=
  ∀ nm data im, RedEvent.done nm data im ∈ log → ∃ c c', c.timer.toNat < 2 ^ 32 ∧
    x.images data c = .ok (im, c') ∧ ∃ d d', SaveRun x.out x.base x.edges im d d'

theorem pollRun_recorded {x : RedCtx} {l : List DirEntry} {c : Clock} {s s' : RedState} {b : Bool} (h : PollRun x l c s s' b)
    (hc : c.timer.toNat < 2 ^ 32) (h0 : Recorded x s.log) : Recorded x s'.log := by
  induction h with
  | nil => exact h0
  | other _ _ ih => exact ih hc h0
  | skip _ _ _ ih => exact ih hc h0
  | exit _ _ _ => exact h0
  | @done e es c s s' b data im c' d' _ _ _ him hs _ ih =>
    apply ih
    · obtain ⟨-, _, _, -, -, -, rfl⟩ := images_output x data c c' im him
      exact clockAfter_timer c hc _
    · intro nm dt i hm
      rcases List.mem_append.1 hm with hm | hm
      · exact h0 nm dt i hm
      · rw [List.mem_singleton] at hm
        injection hm with _ h2 h3
        subst h2; subst h3
        exact ⟨_, _, hc, him, _, _, hs⟩
  | failed _ _ _ hc' _ ih =>
    apply ih hc'
    intro nm dt i hm
    rcases List.mem_append.1 hm with hm | hm
    · exact h0 nm dt i hm
    · rw [List.mem_singleton] at hm; cases hm

theorem monRun_recorded {x : RedCtx} {rs : List (List DirEntry × List DirEntry)} {s s' : RedState} {st : RedStatus}
    (h : MonRun x rs s s' st) (h0 : Recorded x s.log) : Recorded x s'.log := by
  induction h with
  | running => exact h0
  | stop _ => exact h0
  | exit _ hp => exact pollRun_recorded hp (by decide) h0
  | round _ hp _ ih => exact ih (pollRun_recorded hp (by decide) h0)

theorem doneFiles_append (a b : List RedEvent) : doneFiles (a ++ b) = doneFiles a ++ doneFiles b := by
  induction a with
  | nil => rfl
  | cons e a ih => cases e <;> simp [doneFiles, ih]

theorem mem_doneFiles {log : List RedEvent} {f : Path × Bytes} : f ∈ doneFiles log ↔ ∃ im, RedEvent.done f.1 f.2 im ∈ log := by
  induction log with
  | nil => simp [doneFiles]
  | cons e log ih =>
    cases e with
    | done n data im =>
      simp only [doneFiles, List.mem_cons, ih]
      constructor
      · rintro (rfl | ⟨i, h⟩)
        · exact ⟨im, Or.inl rfl⟩
        · exact ⟨i, Or.inr h⟩
      · rintro ⟨i, h | h⟩
        · injection h with h1 h2 h3
          exact Or.inl (Prod.ext h1 h2)
        · exact Or.inr ⟨i, h⟩
    | failed n =>
      simp only [doneFiles, List.mem_cons, ih]
      constructor
      · rintro ⟨i, h⟩; exact ⟨i, Or.inr h⟩
      · rintro ⟨i, h | h⟩
        · cases h
        · exact ⟨i, h⟩

/-- No file is processed with success twice. -/
theorem doneFiles_nodup (x : RedCtx) (d : Dir) (rs : List (List DirEntry × List DirEntry)) (s : RedState) (st : RedStatus)
    (h : MonRun x rs (RedState.init d) s st) : (doneFiles s.log).Nodup := by
  have key : ∀ log : List RedEvent, (∀ i j : Nat, i < j → ∀ (n : Path) (data : Bytes) (im : Stack) (ev : RedEvent), log[i]? = some (RedEvent.done n data im) → log[j]? = some ev → ev.name ≠ n) →
      (doneFiles log).Nodup := by
    intro log
    induction log with
    | nil => intro _; exact List.nodup_nil
    | cons e log ih =>
      intro hl
      have htail := ih (fun i j hij n data im ev h1 h2 => hl (i + 1) (j + 1) (by omega) n data im ev (by simpa using h1) (by simpa using h2))
      cases e with
      | failed n => exact htail
      | done n data im =>
        simp only [doneFiles]
        refine List.nodup_cons.2 ⟨?_, htail⟩
        intro hm
        obtain ⟨im', hm⟩ := mem_doneFiles.1 hm
        obtain ⟨j, hj⟩ := List.mem_iff_getElem?.1 hm
        exact hl 0 (j + 1) (by omega) n data im _ rfl (by simpa using hj) rfl
  exact key s.log (fun i j hij n data im ev h1 h2 => c47_once x d rs s st h i j hij n data im ev h1 h2)

theorem stackSum_perm {a b : List Stack} (h : a.Perm b) (i y z : Nat) : stackSum a i y z = stackSum b i y z := by
  unfold stackSum
  exact (h.map _).sum_eq

theorem successes_of_doneFiles (g : Bytes → Stack) (log : List RedEvent)
    (h : ∀ nm data im, RedEvent.done nm data im ∈ log → im = g data) : successes log = (doneFiles log).map fun f => g f.2 := by
  induction log with
  | nil => rfl
  | cons e log ih =>
    have ih' := ih (fun nm data im hm => h nm data im (by simp [hm]))
    cases e with
    | done n data im => simp only [successes, doneFiles, List.map_cons]; rw [ih', h n data im (by simp)]
    | failed n => exact ih'

/-- C98: two runs with the same options that have processed the same files with success, whatever the polls were in which the
files were found and in whatever order, have written the same images, if every file dates its own hits. -/
theorem c98_same_images_partial (x : RedCtx) (n k : Nat) (he : x.edges.length = n + 1) (hn : 0 < n) (hd : dimOf x.sr = .ok k) (hk : 0 < k)
    (d₁ d₂ : Dir) (h01 : ∀ i t, d₁ (tiffName x.out x.base i) ≠ some (.tiff t))
    (h02 : ∀ i t, d₂ (tiffName x.out x.base i) ≠ some (.tiff t))
    (rs₁ rs₂ : List (List DirEntry × List DirEntry)) (s₁ s₂ : RedState) (st₁ st₂ : RedStatus)
    (h₁ : MonRun x rs₁ (RedState.init d₁) s₁ st₁) (h₂ : MonRun x rs₂ (RedState.init d₂) s₂ st₂)
    (hsame : ∀ f, f ∈ doneFiles s₁.log ↔ f ∈ doneFiles s₂.log) (hne : doneFiles s₁.log ≠ [])
    (hself : ∀ f ∈ doneFiles s₁.log, SelfDated f.2) (i : Nat) (hi : i < n) (y z : Nat) (hy : y < k) (hz : z < k) :
    ∃ v, filePixel (s₁.dir (tiffName x.out x.base i)) y z = some v ∧
      filePixel (s₂.dir (tiffName x.out x.base i)) y z = some v := by
  classical
  have r1 := monRun_recorded h₁ (by intro nm data im hm; simp [RedState.init] at hm)
  have r2 := monRun_recorded h₂ (by intro nm data im hm; simp [RedState.init] at hm)
  have hex : ∀ data : Bytes, ∃ im : Stack, ∀ c c' im', c.timer.toNat < 2 ^ 32 → SelfDated data → x.images data c = .ok (im', c') → im' = im := by
    intro data
    by_cases hq : ∃ c c' im, c.timer.toNat < 2 ^ 32 ∧ SelfDated data ∧ x.images data c = .ok (im, c')
    · obtain ⟨c, c', im, q1, q2, q3⟩ := hq
      exact ⟨im, fun c2 c2' im2 p1 p2 p3 => c98_images x data q2 c2 c2' c c' im2 im p1 q1 p3 q3⟩
    · exact ⟨[], fun c2 c2' im2 p1 p2 p3 => absurd ⟨c2, c2', im2, p1, p2, p3⟩ hq⟩
  obtain ⟨g, hg⟩ := Classical.axiomOfChoice hex
  have e1 : successes s₁.log = (doneFiles s₁.log).map fun f => g f.2 := by
    refine successes_of_doneFiles g _ ?_
    intro nm data im hm
    obtain ⟨c, c', q1, q2, -⟩ := r1 nm data im hm
    exact hg data c c' im q1 (hself (nm, data) (mem_doneFiles.2 ⟨im, hm⟩)) q2
  have e2 : successes s₂.log = (doneFiles s₂.log).map fun f => g f.2 := by
    refine successes_of_doneFiles g _ ?_
    intro nm data im hm
    obtain ⟨c, c', q1, q2, -⟩ := r2 nm data im hm
    exact hg data c c' im q1 (hself (nm, data) ((hsame _).2 (mem_doneFiles.2 ⟨im, hm⟩))) q2
  have hperm : (doneFiles s₁.log).Perm (doneFiles s₂.log) :=
    (List.perm_ext_iff_of_nodup (doneFiles_nodup x d₁ rs₁ s₁ st₁ h₁) (doneFiles_nodup x d₂ rs₂ s₂ st₂ h₂)).2 hsame
  have hne1 : successes s₁.log ≠ [] := by rw [e1]; simpa using hne
  have hne2 : successes s₂.log ≠ [] := by
    rw [e2]
    intro h0
    rw [List.map_eq_nil_iff] at h0
    rw [h0] at hperm
    exact hne hperm.eq_nil
  obtain ⟨t1, a1, -, -, a2⟩ := c47_counts x n k he hn hd hk d₁ h01 rs₁ s₁ st₁ h₁ hne1 i hi
  obtain ⟨t2, b1, -, -, b2⟩ := c47_counts x n k he hn hd hk d₂ h02 rs₂ s₂ st₂ h₂ hne2 i hi
  refine ⟨stackSum (successes s₁.log) i y z % 2 ^ 32, ?_, ?_⟩
  · rw [a1]; exact a2 y z hy hz
  · rw [b1, e1, stackSum_perm (hperm.map _), ← e2]
    exact b2 y z hy hz

/-! ### Counts -/

/-- The entries of hits and events. -/
def outputEntries (mode : String) (v : List (List Hit × List Neutron)) : List Entry :=
  v.flatMap fun p => if mode = "hit" then p.1.filterMap hitEntry else p.2.map eventEntry

theorem entryList_output (mode : String) (bs : List EventBatch) : entryList mode bs = outputEntries mode (outputOf bs) := by
  unfold entryList outputEntries outputOf
  rw [List.flatMap_map]
  rfl

/-- The pixels of the images of a file that dates its own hits. -/
theorem recorded_pixel (x : RedCtx) (sr : ℚ) (qs : List ℚ) (k : Nat) (hsr : x.sr = .fin sr) (hqs : x.edges = qs.map .fin)
    (hs : qs.Pairwise (· < ·)) (hl : 2 ≤ qs.length) (hd : dimOf x.sr = .ok k) (hk : 0 < k) (data : Bytes) (hself : SelfDated data)
    (c c' : Clock) (im : Stack) (hc : c.timer.toNat < 2 ^ 32) (hi : x.images data c = .ok (im, c')) (d d' : Dir)
    (hsave : SaveRun x.out x.base x.edges im d d') :
    ∃ v, evAll ⟨.gdc, x.params, x.solve⟩ (hitsOfFile data) = .ok v ∧
      ∀ i y z, i + 1 < qs.length → y < k → z < k →
        pixel im i y z = some (counted sr qs (side sr) (outputEntries x.tofMode v) i y z % 2 ^ 32) := by
  have hlen : x.edges.length = (qs.length - 1) + 1 := by rw [hqs, List.length_map]; omega
  have hsh := images_shaped hlen (by omega) hd hi hsave
  obtain ⟨-, bs, v, a1, a2, a3, -⟩ := images_output x data c c' im hi
  rw [perChunk_selfDated data hself c hc] at a3
  refine ⟨v, a3, ?_⟩
  intro i y z hi' hy hz
  have hb : bs ≠ [] := by
    intro h0
    rw [h0] at a1
    unfold createImages at a1
    rw [if_neg (by intro h; rw [h] at hlen; simp at hlen), if_neg (by omega), if_pos rfl] at a1
    injection a1 with a1
    subst a1
    refine (c39_empty_images x.out x.base x.edges _ d d' 0 ?_).1 hsave
    rw [List.getElem?_replicate, if_pos (by omega)]
  rw [hsr, hqs] at a1
  rw [c38_agree_partial _ _ (by rw [List.length_map]; exact hl) _ _ hb] at a1
  cases h0 : initImages (.fin sr) (qs.map .fin) with
  | throws m => rw [h0] at a1; simp [Res.bind] at a1
  | ub u => rw [h0] at a1; simp [Res.bind] at a1
  | ok im0 =>
    rw [h0] at a1
    have hp := c35_counts_partial sr qs hs hl x.tofMode bs im0 im h0 a1 i y z
    rw [hsr] at hd
    have hside : k = side sr := by have := dimOf_side sr k hd (by omega); omega
    rw [hp, if_pos ⟨hi', by omega, by omega⟩, entryList_output, a2]

theorem counted_append (sr : ℚ) (qs : List ℚ) (d : Nat) (a b : List Entry) (i y z : Nat) :
    counted sr qs d (a ++ b) i y z = counted sr qs d a i y z + counted sr qs d b i y z := by
  unfold counted
  exact List.countP_append ..

/-- What the image files hold after a run: for every file processed with success the entries of its events. -/
theorem run_counts (x : RedCtx) (sr : ℚ) (qs : List ℚ) (k : Nat) (hsr : x.sr = .fin sr) (hqs : x.edges = qs.map .fin)
    (hs : qs.Pairwise (· < ·)) (hl : 2 ≤ qs.length) (hd : dimOf x.sr = .ok k) (hk : 0 < k)
    (d : Dir) (h0 : ∀ i t, d (tiffName x.out x.base i) ≠ some (.tiff t))
    (rs : List (List DirEntry × List DirEntry)) (s : RedState) (st : RedStatus) (h : MonRun x rs (RedState.init d) s st)
    (hne : doneFiles s.log ≠ []) (hself : ∀ f ∈ doneFiles s.log, SelfDated f.2) :
    ∃ vs, List.Forall₂ (fun f v => evAll ⟨.gdc, x.params, x.solve⟩ (hitsOfFile f.2) = .ok v) (doneFiles s.log) vs ∧
      ∀ i y z, i + 1 < qs.length → y < k → z < k → filePixel (s.dir (tiffName x.out x.base i)) y z =
        some (counted sr qs (side sr) (vs.flatMap (outputEntries x.tofMode)) i y z % 2 ^ 32) := by
  have r := monRun_recorded h (by intro nm data im hm; simp [RedState.init] at hm)
  have key : ∀ log : List RedEvent, Recorded x log → (∀ f ∈ doneFiles log, SelfDated f.2) →
      ∃ vs, List.Forall₂ (fun f v => evAll ⟨.gdc, x.params, x.solve⟩ (hitsOfFile f.2) = .ok v) (doneFiles log) vs ∧
        ∀ i y z, i + 1 < qs.length → y < k → z < k → stackSum (successes log) i y z % 2 ^ 32 =
          counted sr qs (side sr) (vs.flatMap (outputEntries x.tofMode)) i y z % 2 ^ 32 := by
    intro log
    induction log with
    | nil => intro _ _; exact ⟨[], .nil, fun i y z _ _ _ => by simp [stackSum, successes, counted]⟩
    | cons e log ih =>
      intro r hself
      have r' : Recorded x log := fun nm data im hm => r nm data im (by simp [hm])
      cases e with
      | failed n => exact ih r' hself
      | done n data im =>
        simp only [doneFiles, List.mem_cons, forall_eq_or_imp] at hself
        obtain ⟨vs, f1, f2⟩ := ih r' hself.2
        obtain ⟨c, c', q1, q2, d1, d2, q3⟩ := r n data im (by simp)
        obtain ⟨v, g1, g2⟩ := recorded_pixel x sr qs k hsr hqs hs hl hd hk data hself.1 c c' im q1 q2 d1 d2 q3
        refine ⟨v :: vs, .cons g1 f1, ?_⟩
        intro i y z hi hy hz
        have e1 : stackSum (successes (.done n data im :: log)) i y z = (pixel im i y z).getD 0 + stackSum (successes log) i y z := by
          simp [stackSum, successes]
        rw [e1, g2 i y z hi hy hz, List.flatMap_cons, counted_append, Option.getD_some, Nat.add_mod, f2 i y z hi hy hz]
        omega
  obtain ⟨vs, f1, f2⟩ := key s.log r hself
  refine ⟨vs, f1, ?_⟩
  intro i y z hi hy hz
  have hne' : successes s.log ≠ [] := by
    intro h0
    apply hne
    have : ∀ log : List RedEvent, successes log = [] → doneFiles log = [] := by
      intro log
      induction log with
      | nil => intro _; rfl
      | cons e log ih => cases e with
        | done n data im => intro h; simp [successes] at h
        | failed n => exact ih
    exact this _ h0
  have hlen : x.edges.length = (qs.length - 1) + 1 := by rw [hqs, List.length_map]; omega
  obtain ⟨t, a1, -, -, a2⟩ := c47_counts x (qs.length - 1) k hlen (by omega) hd hk d h0 rs s st h hne' i (by omega)
  rw [a1, ← f2 i y z hi hy hz]
  exact a2 y z hy hz

/-- C98: with the mode "hit", every pixel is the number of the hits of the files processed with success that belong there, every
file taken on its own, modulo 2^32. -/
theorem c98_hits_partial (x : RedCtx) (sr : ℚ) (qs : List ℚ) (k : Nat) (hsr : x.sr = .fin sr) (hqs : x.edges = qs.map .fin)
    (hs : qs.Pairwise (· < ·)) (hl : 2 ≤ qs.length) (hd : dimOf x.sr = .ok k) (hk : 0 < k) (hmode : x.tofMode = "hit")
    (d : Dir) (h0 : ∀ i t, d (tiffName x.out x.base i) ≠ some (.tiff t))
    (rs : List (List DirEntry × List DirEntry)) (s : RedState) (st : RedStatus) (h : MonRun x rs (RedState.init d) s st)
    (hne : doneFiles s.log ≠ []) (hself : ∀ f ∈ doneFiles s.log, SelfDated f.2) (i y z : Nat) (hi : i + 1 < qs.length)
    (hy : y < k) (hz : z < k) :
    filePixel (s.dir (tiffName x.out x.base i)) y z = some (counted sr qs (side sr)
      ((doneFiles s.log).flatMap fun f => (hitsOfFile f.2).flatten.filterMap hitEntry) i y z % 2 ^ 32) := by
  obtain ⟨vs, f1, f2⟩ := run_counts x sr qs k hsr hqs hs hl hd hk d h0 rs s st h hne hself
  rw [f2 i y z hi hy hz]
  have : vs.flatMap (outputEntries x.tofMode) =
      (doneFiles s.log).flatMap fun f => (hitsOfFile f.2).flatten.filterMap hitEntry := by
    clear f2 hne hself
    generalize doneFiles s.log = fs at f1
    induction f1 with
    | nil => rfl
    | cons h1 _ ih =>
      rw [List.flatMap_cons, List.flatMap_cons, ih]
      congr 1
      obtain ⟨g1, -⟩ := evAll_fst _ _ _ h1
      rw [← g1, hmode]
      unfold outputEntries
      simp only [if_pos]
      rw [List.filterMap_flatten, List.flatMap_def, List.map_map]
      rfl
  rw [this]

theorem hitsOfFile_from (data : Bytes) : ∀ hs ∈ hitsOfFile data, ∃ chip ws c, ws.length < 2 ^ 16 ∧
    hs = (runPackets .gdc true chip ws c).2 := by
  have e : hitsOfFile data = perChunk .gdc Clock.zero (announced (wordsOf data)) := (perChunk_hits .gdc Clock.zero (by decide) _).symm
  rw [e]
  have hlen : ∀ ws : List U64, ∀ k ∈ announced ws, k.packets.length < 2 ^ 16 := by
    intro ws
    induction ws with
    | nil => simp [announced]
    | cons w ws ih =>
      rw [announced]
      split
      · intro k hk
        rcases List.mem_cons.1 hk with rfl | hk
        · have : field w 48 16 < 2 ^ 16 := Nat.mod_lt _ (by decide)
          simp only [List.length_take]
          omega
        · exact ih k hk
      · exact ih
  have key : ∀ cs : List Chunk, (∀ k ∈ cs, k.packets.length < 2 ^ 16) → ∀ c, ∀ hs ∈ perChunk .gdc c cs, ∃ chip ws c, ws.length < 2 ^ 16 ∧
      hs = (runPackets .gdc true chip ws c).2 := by
    intro cs
    induction cs with
    | nil => intro _ c hs hh; simp [perChunk] at hh
    | cons k cs ih =>
      intro hk c hs hh
      rw [perChunk] at hh
      rcases List.mem_cons.1 hh with rfl | hh
      · exact ⟨_, _, _, hk k (by simp), rfl⟩
      · exact ih (fun k' h' => hk k' (by simp [h'])) _ hs hh
  exact key _ (hlen _) _

/-- The events of a file, from an assignment of its hits to neutrons that can be recovered. -/
theorem file_events (x : RedCtx) (r : ℚ) (hp : x.params.feature = .fin r) (hr : |r| ≤ 2 ^ 20) (hrange : x.params.range < 2 ^ 64)
    (data : Bytes) (v : List (List Hit × List Neutron)) (he : evAll ⟨.gdc, x.params, x.solve⟩ (hitsOfFile data) = .ok v)
    (hg : ∀ hs ∈ hitsOfFile data, ∀ h ∈ hs, h.spidertime.toNat < 2 ^ 48) (neutron : List (List Int))
    (hres : List.Forall₂ (Resolved x.params.range r) (hitsOfFile data) neutron) :
    List.Forall₂ (IsEventOf 1) (List.zipWith (visible x.params.minSize) (hitsOfFile data) neutron).flatten
      (v.map Prod.snd).flatten := by
  obtain ⟨g1, g2⟩ := evAll_fst _ _ _ he
  have hfrom := hitsOfFile_from data
  rw [← g1] at hg hres hfrom ⊢
  clear he g1
  apply forall₂_flatten
  induction v generalizing neutron with
  | nil => cases hres; exact .nil
  | cons p v ih =>
    rw [List.map_cons] at hres
    cases hres with
    | cons h1 h2 =>
      rw [List.map_cons, List.map_cons, List.zipWith_cons_cons]
      refine .cons ?_ (ih (fun hs hh => hg hs (by simp at hh ⊢; tauto)) _ h2 (fun q hq => g2 q (by simp [hq]))
        (fun hs hh => hfrom hs (by simp at hh ⊢; tauto)))
      obtain ⟨chip, ws, c0, hwl, e⟩ := hfrom p.1 (by simp)
      have hsz := (runPackets_hits .gdc chip ws c0).1
      refine eventsOf_visible _ _ _ (g2 p (by simp)) r hp hr hrange (hg p.1 (by simp)) ?_ ?_ _ h1
      · intro g hx
        rw [e] at hx
        obtain ⟨w, tdc, gdc, hw⟩ := (runPackets_hits .gdc chip ws c0).2 g hx
        obtain ⟨r1, r2, r3, -⟩ := hit_ranges .gdc g chip w tdc gdc hw
        refine ⟨by omega, by omega, by omega, ?_⟩
        rcases hw with ⟨-, rfl⟩ | ⟨hm, -⟩
        · obtain ⟨t, ht1, ht2⟩ := c05_bounded w tdc gdc chip
          exact ⟨t, ht1, by omega⟩
        · simp at hm
      · rw [e]; omega

/-- C98: with any other mode, every pixel is the number of the visible neutrons of the files processed with success whose centroid and
mean time of flight belong there, modulo 2^32, for any assignment of the hits of every chunk to neutrons that can be recovered. -/
theorem c98_neutrons_partial (x : RedCtx) (sr : ℚ) (qs : List ℚ) (k : Nat) (hsr : x.sr = .fin sr) (hqs : x.edges = qs.map .fin)
    (hs : qs.Pairwise (· < ·)) (hl : 2 ≤ qs.length) (hd : dimOf x.sr = .ok k) (hk : 0 < k) (hmode : x.tofMode ≠ "hit")
    (r : ℚ) (hp : x.params.feature = .fin r) (hr : |r| ≤ 2 ^ 20) (hrange : x.params.range < 2 ^ 64)
    (d : Dir) (h0 : ∀ i t, d (tiffName x.out x.base i) ≠ some (.tiff t))
    (rs : List (List DirEntry × List DirEntry)) (s : RedState) (st : RedStatus) (h : MonRun x rs (RedState.init d) s st)
    (hne : doneFiles s.log ≠ []) (hself : ∀ f ∈ doneFiles s.log, SelfDated f.2)
    (hg : ∀ f ∈ doneFiles s.log, ∀ hs ∈ hitsOfFile f.2, ∀ h ∈ hs, h.spidertime.toNat < 2 ^ 48)
    (neutron : Bytes → List (List Int))
    (hres : ∀ f ∈ doneFiles s.log, List.Forall₂ (Resolved x.params.range r) (hitsOfFile f.2) (neutron f.2)) :
    ∃ es : List Neutron,
      List.Forall₂ (IsEventOf 1) ((doneFiles s.log).flatMap fun f =>
        (List.zipWith (visible x.params.minSize) (hitsOfFile f.2) (neutron f.2)).flatten) es ∧
      ∀ i y z, i + 1 < qs.length → y < k → z < k → filePixel (s.dir (tiffName x.out x.base i)) y z =
        some (counted sr qs (side sr) (es.map eventEntry) i y z % 2 ^ 32) := by
  obtain ⟨vs, f1, f2⟩ := run_counts x sr qs k hsr hqs hs hl hd hk d h0 rs s st h hne hself
  refine ⟨vs.flatMap fun v => (v.map Prod.snd).flatten, ?_, ?_⟩
  · rw [List.flatMap_def, List.flatMap_def]
    apply forall₂_flatten
    clear f2 hne hself
    generalize doneFiles s.log = fs at f1 hg hres
    induction f1 with
    | nil => exact .nil
    | @cons f v fs vs h1 _ ih =>
      rw [List.map_cons, List.map_cons]
      exact .cons (file_events x r hp hr hrange f.2 v h1 (hg f (by simp)) (neutron f.2) (hres f (by simp)))
        (ih (fun f hf => hg f (by simp [hf])) (fun f hf => hres f (by simp [hf])))
  · intro i y z hi hy hz
    rw [f2 i y z hi hy hz]
    have : vs.flatMap (outputEntries x.tofMode) = (vs.flatMap fun v => (v.map Prod.snd).flatten).map eventEntry := by
      rw [List.map_flatMap]
      congr 1
      funext v
      unfold outputEntries
      simp only [if_neg hmode]
      rw [List.map_flatten, List.flatMap_def, List.map_map]
      rfl
    rw [this]

/-! ### The program -/

theorem redMain_mon {argv : List Arg} {conf : Path → Res Settings} {solve : List GaussRow → F64 × F64}
    {rs : List (List DirEntry × List DirEntry)} {d : Dir} {s' : RedState} {e : Option Nat} (h : RedMain argv conf solve rs d s' e)
    (hne : doneFiles s'.log ≠ []) : ∃ o s es st, redParse argv = .ok o ∧ conf o.configFile = .ok s ∧ s.edges = .ok es ∧
      MonRun (o.ctx s solve es) rs (RedState.init d) s' st := by
  cases h with
  | badArgs _ => simp [RedState.init, doneFiles] at hne
  | badConf _ _ => simp [RedState.init, doneFiles] at hne
  | run h1 h2 h3 h4 => exact ⟨_, _, _, _, h1, h2, h3, h4⟩
  | lost h1 h2 h3 h4 => exact ⟨_, _, _, _, h1, h2, h3, h4⟩

/-- C98, for the program: two invocations with the same words and the same configuration, at any moment, that have processed the same
files with success have left the same images. -/
theorem c98_program_partial (argv : List Arg) (conf : Path → Res Settings) (solve : List GaussRow → F64 × F64)
    (o : RedOptions) (c : Settings) (es : List F64) (hargs : redParse argv = .ok o) (hconf : conf o.configFile = .ok c)
    (hedges : c.edges = .ok es) (hl : 2 ≤ es.length) (k : Nat) (hd : dimOf c.sr = .ok k) (hk : 0 < k)
    (d₁ d₂ : Dir) (h01 : ∀ i t, d₁ (tiffName o.output o.base i) ≠ some (.tiff t))
    (h02 : ∀ i t, d₂ (tiffName o.output o.base i) ≠ some (.tiff t))
    (rs₁ rs₂ : List (List DirEntry × List DirEntry)) (s₁ s₂ : RedState) (e₁ e₂ : Option Nat)
    (h₁ : RedMain argv conf solve rs₁ d₁ s₁ e₁) (h₂ : RedMain argv conf solve rs₂ d₂ s₂ e₂)
    (hsame : ∀ f, f ∈ doneFiles s₁.log ↔ f ∈ doneFiles s₂.log) (hne : doneFiles s₁.log ≠ [])
    (hself : ∀ f ∈ doneFiles s₁.log, SelfDated f.2) (i : Nat) (hi : i + 1 < es.length) (y z : Nat) (hy : y < k) (hz : z < k) :
    ∃ v, filePixel (s₁.dir (tiffName o.output o.base i)) y z = some v ∧
      filePixel (s₂.dir (tiffName o.output o.base i)) y z = some v := by
  have hne2 : doneFiles s₂.log ≠ [] := by
    intro h0
    cases hs : doneFiles s₁.log with
    | nil => exact hne hs
    | cons f fs =>
      have := (hsame f).1 (by simp [hs])
      rw [h0] at this
      simp at this
  obtain ⟨o1, c1, es1, st1, a1, a2, a3, a4⟩ := redMain_mon h₁ hne
  obtain ⟨o2, c2, es2, st2, b1, b2, b3, b4⟩ := redMain_mon h₂ hne2
  rw [hargs] at a1 b1
  injection a1 with a1; injection b1 with b1
  subst a1; subst b1
  rw [hconf] at a2 b2
  injection a2 with a2; injection b2 with b2
  subst a2; subst b2
  rw [hedges] at a3 b3
  injection a3 with a3; injection b3 with b3
  subst a3; subst b3
  exact c98_same_images_partial (o.ctx c solve es) (es.length - 1) k (show es.length = _ by omega) (by omega) hd hk d₁ d₂ h01 h02 rs₁ rs₂ s₁ s₂ st1 st2
    a4 b4 hsame hne hself i (by omega) y z hy hz

/-! ### Examples, and files that do not date their hits -/

/-- A global time, a trigger and a hit; and a hit alone. -/
def exDated : Bytes := streamBytes [⟨0x0020000033585054#64, [BitVec.ofNat 64 (0x44 * 2 ^ 56 + 1000 * 2 ^ 16), 0x4500000000000000#64,
  BitVec.ofNat 64 (0x6F * 2 ^ 56 + 1000 * 2 ^ 12), exPacket 0x1234 2000]⟩]
def exUndated : Bytes := streamBytes [⟨0x0008000033585054#64, [exPacket 0x1234 2000]⟩]

/-- Four pixels, one bin. -/
def exRed : RedCtx := ⟨⟨.fin 5, 1, 75⟩, fun _ => (.nan, .nan), .fin (1 / 256), [.fin 0, .fin 1], "hit", [], []⟩

/-- The timestamps after `exDated`. -/
def exClock : Clock := (runPackets .gdc true 0 [BitVec.ofNat 64 (0x44 * 2 ^ 56 + 1000 * 2 ^ 16), 0x4500000000000000#64,
  BitVec.ofNat 64 (0x6F * 2 ^ 56 + 1000 * 2 ^ 12), exPacket 0x1234 2000] Clock.zero).1

theorem exRed_dim : dimOf exRed.sr = .ok ((2 : Nat) : Int) := by decide +kernel

theorem exRed_first : exRed.images exDated Clock.zero = .ok ([[[0#32, 1#32], [0#32, 0#32]]], exClock) := by decide +kernel
theorem exRed_then : exRed.images exUndated exClock = .ok ([[[0#32, 1#32], [0#32, 0#32]]], exClock) := by decide +kernel
theorem exRed_alone : exRed.images exUndated Clock.zero = .ok ([[[0#32, 0#32], [0#32, 0#32]]], Clock.zero) := by decide +kernel

theorem exShaped (v : U32) : Shaped 1 2 [[[0#32, v], [0#32, 0#32]]] := ⟨rfl, by simp, by simp⟩

def exEntryA : DirEntry := ⟨"a.tpx3".toList, true, some exDated⟩
def exEntryB : DirEntry := ⟨"b.tpx3".toList, true, some exUndated⟩

theorem selfDated_exDated : SelfDated exDated := by
  have hp : filePackets exDated = [BitVec.ofNat 64 (0x44 * 2 ^ 56 + 1000 * 2 ^ 16), 0x4500000000000000#64,
    BitVec.ofNat 64 (0x6F * 2 ^ 56 + 1000 * 2 ^ 12), exPacket 0x1234 2000] := by decide +kernel
  intro a h b e hh
  rw [hp] at e
  match a, e with
  | [], e => injection e with e1 _; subst e1; exact absurd hh (by decide)
  | [_], e => injection e with _ e; injection e with e1 _; subst e1; exact absurd hh (by decide)
  | [_, _], e => injection e with _ e; injection e with _ e; injection e with e1 _; subst e1; exact absurd hh (by decide)
  | [_, _, _], e =>
    injection e with e1 e; injection e with e2 e; injection e with e3 e
    subst e1; subst e2; subst e3
    exact ⟨[], _, [], _, [], _, [], rfl, by decide, by simp, by decide, by decide, by decide⟩
  | _ :: _ :: _ :: _ :: a, e =>
    injection e with _ e; injection e with _ e; injection e with _ e; injection e with _ e
    simp at e

/-- C98 is false in general: of two files, the second without timestamps of its own, one poll that finds both counts two hits, two polls
count one: the timestamps are carried from file to file within a poll and forgotten between polls. -/
theorem c98_false_polls :
    ∃ s₁ s₂, MonRun exRed [([], [exEntryA, exEntryB])] (RedState.init fun _ => none) s₁ .running ∧
      MonRun exRed [([], [exEntryA]), ([], [exEntryA, exEntryB])] (RedState.init fun _ => none) s₂ .running ∧
      doneFiles s₁.log = [(exEntryA.name, exDated), (exEntryB.name, exUndated)] ∧ doneFiles s₂.log = doneFiles s₁.log ∧
      filePixel (s₁.dir (tiffName exRed.out exRed.base 0)) 0 1 = some 2 ∧
      filePixel (s₂.dir (tiffName exRed.out exRed.base 0)) 0 1 = some 1 := by
  have ha : exEntryA.isRaw = true := by decide
  have hb : exEntryB.isRaw = true := by decide
  have hab : exEntryB.stem ≠ exEntryA.stem := by decide
  obtain ⟨d1, q1⟩ := saveRun_exists (n := 1) (d := 2) (by decide) exRed.out exRed.base exRed.edges [[[0#32, 1#32], [0#32, 0#32]]] (exShaped _) rfl (fun _ => none)
  obtain ⟨d2, q2⟩ := saveRun_exists (n := 1) (d := 2) (by decide) exRed.out exRed.base exRed.edges [[[0#32, 1#32], [0#32, 0#32]]] (exShaped _) rfl d1
  obtain ⟨d3, q3⟩ := saveRun_exists (n := 1) (d := 2) (by decide) exRed.out exRed.base exRed.edges [[[0#32, 0#32], [0#32, 0#32]]] (exShaped _) rfl d1
  have r1 : MonRun exRed [([], [exEntryA, exEntryB])] (RedState.init fun _ => none) _ .running :=
    .round rfl (.done ha (by simp [RedState.init]) rfl exRed_first q1 (.done hb (by simpa [RedState.init] using hab) rfl exRed_then q2 .nil)) .running
  have r2 : MonRun exRed [([], [exEntryA]), ([], [exEntryA, exEntryB])] (RedState.init fun _ => none) _ .running :=
    .round rfl (.done ha (by simp [RedState.init]) rfl exRed_first q1 .nil)
      (.round rfl (.skip ha (by simp [RedState.init]) (.done hb (by simpa [RedState.init] using hab) rfl exRed_alone q3 .nil)) .running)
  refine ⟨_, _, r1, r2, rfl, rfl, ?_, ?_⟩
  · obtain ⟨t, a1, -, -, a2⟩ := c47_counts exRed 1 2 rfl (by decide) exRed_dim (by decide) _ (by simp) _ _ _ r1 (by simp [RedState.init, successes]) 0 (by decide)
    rw [a1]
    exact a2 0 1 (by decide) (by decide)
  · obtain ⟨t, a1, -, -, a2⟩ := c47_counts exRed 1 2 rfl (by decide) exRed_dim (by decide) _ (by simp) _ _ _ r2 (by simp [RedState.init, successes]) 0 (by decide)
    rw [a1]
    exact a2 0 1 (by decide) (by decide)

/-- Two runs that meet the hypotheses of `c98_same_images_partial`: the same file, found together with one that cannot be read as a raw file, or alone
in a later poll. -/
example : ∃ s₁ s₂, MonRun exRed [([], [exEntryA])] (RedState.init fun _ => none) s₁ .running ∧
    MonRun exRed [([], []), ([], [⟨"c.txt".toList, true, some []⟩, exEntryA])] (RedState.init fun _ => none) s₂ .running ∧
    (∀ f, f ∈ doneFiles s₁.log ↔ f ∈ doneFiles s₂.log) ∧ doneFiles s₁.log ≠ [] ∧ (∀ f ∈ doneFiles s₁.log, SelfDated f.2) ∧
    filePixel (s₂.dir (tiffName exRed.out exRed.base 0)) 0 1 = some 1 := by
  have ha : exEntryA.isRaw = true := by decide
  obtain ⟨d1, q1⟩ := saveRun_exists (n := 1) (d := 2) (by decide) exRed.out exRed.base exRed.edges [[[0#32, 1#32], [0#32, 0#32]]] (exShaped _) rfl (fun _ => none)
  have r1 : MonRun exRed [([], [exEntryA])] (RedState.init fun _ => none) _ .running :=
    .round rfl (.done ha (by simp [RedState.init]) rfl exRed_first q1 .nil) .running
  have r2 : MonRun exRed [([], []), ([], [⟨"c.txt".toList, true, some []⟩, exEntryA])] (RedState.init fun _ => none) _ .running :=
    .round rfl .nil (.round rfl (.other (by decide) (.done ha (by simp [RedState.init]) rfl exRed_first q1 .nil)) .running)
  refine ⟨_, _, r1, r2, fun f => Iff.rfl, by simp [RedState.init, doneFiles], ?_, ?_⟩
  · intro f hf
    simp only [RedState.init, List.nil_append, doneFiles, List.mem_singleton] at hf
    subst hf
    exact selfDated_exDated
  · obtain ⟨t, a1, -, -, a2⟩ := c47_counts exRed 1 2 rfl (by decide) exRed_dim (by decide) _ (by simp) _ _ _ r2 (by simp [RedState.init, successes]) 0 (by decide)
    rw [a1]
    exact a2 0 1 (by decide) (by decide)

/-- The other hypotheses of `c98_hits_partial` and `c98_neutrons_partial`. -/
example : exRed.sr = .fin (1 / 256) ∧ exRed.edges = [0, 1].map F64.fin ∧ ([0, 1] : List ℚ).Pairwise (· < ·) ∧ dimOf exRed.sr = .ok ((2 : Nat) : Int) ∧
    exRed.tofMode = "hit" ∧ exRed.params.feature = .fin 5 ∧ hitsOfFile exDated ≠ [[]] ∧
    (∀ hs ∈ hitsOfFile exDated, ∀ h ∈ hs, h.spidertime.toNat < 2 ^ 48) ∧
    List.Forall₂ (Resolved exRed.params.range 5) (hitsOfFile exDated) [[0]] := by
  have hh : hitsOfFile exDated = [[⟨279, 24, 10, 2000, 0, some 1000#32, 2000#64⟩]] := by decide +kernel
  refine ⟨rfl, by simp [exRed], by simp, exRed_dim, rfl, rfl, by rw [hh]; simp, by rw [hh]; simp, ?_⟩
  rw [hh]
  exact .cons (resolved_of (by decide +kernel)) .nil

end Verif.Props
