import Verif.Spec.Threshold
import Verif.Props.Independent
import Verif.Props.Size

/-!
# C128: what the settings of the clustering do to the neutrons
-/

namespace Verif.Props

open Verif Verif.Spec

/-! ## Clustering does not look at the minimum size -/

theorem placeIn_min (m : Nat) (p : AbsParams) (h : Hit) (ss : List Slot) : placeIn (withMin m p) h ss = placeIn p h ss := by
  induction ss with
  | nil => rfl
  | cons s ss ih =>
    rw [placeIn, placeIn, ih]
    rfl

theorem fitLoop_min (m : Nat) (p : AbsParams) (i : Nat) (hs : List Hit) (st : FitState) : fitLoop (withMin m p) i hs st = fitLoop p i hs st := by
  induction hs generalizing i st with
  | nil => rfl
  | cons h hs ih =>
    have e : fitStep (withMin m p) i h st = fitStep p i h st := by
      unfold fitStep
      rw [placeIn_min]
    rw [fitLoop, fitLoop, e]
    cases fitStep p i h st with
    | ok st' => exact ih _ _
    | throws e => rfl
    | ub u => rfl

/-- The object with another minimum size. -/
def minObj (m : Nat) (o : AbsObj) : AbsObj := { o with params := withMin m o.params }

theorem fit_min (m : Nat) (o o' : AbsObj) (data : List Hit) (h : o.fit data = .ok o') : (minObj m o).fit data = .ok (minObj m o') := by
  unfold AbsObj.fit AbsObj.fitWith at h ⊢
  show (fitLoop (withMin m o.params) 0 data _).bind _ = _
  rw [fitLoop_min]
  change (fitLoop o.params 0 data ⟨initSlots numClusters, (numClusters : Int), AbsObj.resized o.labels data.length⟩).bind _ = _ at h
  show (fitLoop o.params 0 data ⟨initSlots numClusters, (numClusters : Int), AbsObj.resized o.labels data.length⟩).bind _ = _
  cases hf : fitLoop o.params 0 data ⟨initSlots numClusters, (numClusters : Int), AbsObj.resized o.labels data.length⟩ with
  | throws e => rw [hf] at h; cases h
  | ub u => rw [hf] at h; cases h
  | ok st =>
    rw [hf] at h
    simp only [Res.bind, bind] at h ⊢
    show Res.bind (indexLoop 0 st.labels (o.indices.take 0 ++ _)) _ = _
    cases hi : indexLoop 0 st.labels (o.indices.take 0 ++ List.replicate (st.maxLabel + 1).toNat []) with
    | throws e => rw [hi] at h; cases h
    | ub u => rw [hi] at h; cases h
    | ok idx =>
      rw [hi] at h
      simp only [Res.bind, Res.ok.injEq] at h ⊢
      rw [← h]
      rfl

/-! ## Events -/

/-- An event that is kept tells the number of its hits. -/
theorem algorithm_size (solve : List GaussRow → F64 × F64) (method : String) (alg : List Hit → Res Neutron)
    (h : AbsObj.algorithm solve method = some alg) (hs : List Hit) (e : Neutron) (he : alg hs = .ok e) (hk : AbsObj.keepEvent e = true) :
    e.nHits = hs.length := by
  unfold AbsObj.algorithm at h
  split_ifs at h
  · rw [Option.some.injEq] at h
    subst h
    unfold centroidFit at he
    by_cases h0 : hs.length = 0
    · rw [if_pos h0, Res.ok.injEq] at he
      rw [← he, h0]
    · rw [if_neg h0] at he
      simp only [bind] at he
      cases hc : centroidLoop true (F64.ofRat 1) ⟨F64.ofRat 0, F64.ofRat 0, F64.ofRat 0, F64.ofRat 0⟩ hs with
      | throws _ => rw [hc] at he; cases he
      | ub _ => rw [hc] at he; cases he
      | ok a =>
        rw [hc] at he
        simp only [Res.bind, Res.ok.injEq] at he
        rw [← he]
  · rw [Option.some.injEq] at h
    subst h
    unfold fastGaussianFit at he
    split_ifs at he with h0
    · rw [Res.ok.injEq] at he
      rw [← he] at hk
      exact absurd hk (by decide +kernel)
    · simp only [bind] at he
      cases hc : gaussRows (F64.ofRat 1) hs with
      | throws _ => rw [hc] at he; cases he
      | ub _ => rw [hc] at he; cases he
      | ok rows =>
        rw [hc] at he
        simp only [Res.bind] at he
        cases hm : getMedian (rows.map GaussRow.tot) with
        | throws _ => rw [hm] at he; cases he
        | ub _ => rw [hm] at he; cases he
        | ok md =>
          rw [hm] at he
          simp only [Res.ok.injEq] at he
          rw [← he]

theorem eventLoop_min (m : Nat) (o : AbsObj) (hm : o.params.minSize ≤ m) (alg : List Hit → Res Neutron)
    (ha : ∀ hs e, alg hs = .ok e → AbsObj.keepEvent e = true → e.nHits = hs.length) (data : List Hit) (fuel label : Nat) (es : List Neutron)
    (h : AbsObj.eventLoop o alg data fuel label = .ok es) : AbsObj.eventLoop (minObj m o) alg data fuel label = .ok (atLeast m es) := by
  induction fuel generalizing label es with
  | zero =>
    rw [AbsObj.eventLoop, Res.ok.injEq] at h
    rw [AbsObj.eventLoop, ← h]
    rfl
  | succ fuel ih =>
    rw [AbsObj.eventLoop] at h ⊢
    show (match o.indices[label]? with | none => _ | some is => _) = _
    split at h
    · cases h
    · rename_i is hi
      rw [hi]
      simp only [bind] at h ⊢
      cases hg : AbsObj.gather data is with
      | throws _ => rw [hg] at h; cases h
      | ub _ => rw [hg] at h; cases h
      | ok cl =>
        rw [hg] at h
        simp only [Res.bind] at h ⊢
        show (if cl.length < m then _ else _) = _
        by_cases h1 : cl.length < o.params.minSize
        · rw [if_pos h1] at h
          rw [if_pos (by omega)]
          exact ih _ _ h
        · rw [if_neg h1] at h
          cases hal : alg cl with
          | throws _ => rw [hal] at h; cases h
          | ub _ => rw [hal] at h; cases h
          | ok e =>
            rw [hal] at h
            simp only at h
            cases hr : AbsObj.eventLoop o alg data fuel (label + 1) with
            | throws _ => rw [hr] at h; cases h
            | ub _ => rw [hr] at h; cases h
            | ok rest =>
              rw [hr] at h
              simp only [Res.ok.injEq] at h
              have hrest := ih _ _ hr
              subst h
              by_cases hk : AbsObj.keepEvent e = true
              · have hn := ha _ _ hal hk
                rw [if_pos hk]
                by_cases h2 : cl.length < m
                · rw [if_pos h2, hrest]
                  unfold atLeast
                  rw [List.filter_cons_of_neg (by simp; omega)]
                · rw [if_neg h2]
                  simp only [hrest, if_pos hk]
                  unfold atLeast
                  rw [List.filter_cons_of_pos (by simp; omega)]
              · rw [if_neg hk]
                by_cases h2 : cl.length < m
                · rw [if_pos h2, hrest]
                · rw [if_neg h2]
                  simp only [hrest, if_neg hk]

theorem getEvents_min (m : Nat) (solve : List GaussRow → F64 × F64) (o : AbsObj) (hm : o.params.minSize ≤ m) (data : List Hit)
    (es : List Neutron) (h : o.getEvents solve data = .ok es) : (minObj m o).getEvents solve data = .ok (atLeast m es) := by
  unfold AbsObj.getEvents at h ⊢
  show (if o.labels.length ≠ data.length then _ else if o.labels = [] then _ else
    match AbsObj.algorithm solve o.method with | none => _ | some alg => _) = _
  split_ifs at h ⊢ with h1 h2
  · rw [Res.ok.injEq] at h
    rw [← h]
    rfl
  · split at h
    · cases h
    · rename_i alg ha
      rw [ha]
      exact eventLoop_min m o hm alg (fun hs e => algorithm_size solve _ alg ha hs e) data _ _ es h

/-- C128 for the clustering object: `fit` and `get_events` with a greater minimum size give the neutrons with at least that many hits,
and the same labels, for both methods of finding the position. -/
theorem c128_events (m : Nat) (solve : List GaussRow → F64 × F64) (o o' : AbsObj) (data : List Hit) (es : List Neutron)
    (hm : o.params.minSize ≤ m) (h : o.fit data = .ok o') (he : o'.getEvents solve data = .ok es) :
    ∃ a, AbsObj.fit { o with params := withMin m o.params } data = .ok a ∧ a.labels = o'.labels ∧
      a.getEvents solve data = .ok (atLeast m es) := by
  refine ⟨minObj m o', fit_min m o o' data h, rfl, getEvents_min m solve o' ?_ data es he⟩
  have : o'.params = o.params := by
    unfold AbsObj.fit AbsObj.fitWith at h
    simp only [bind] at h
    generalize fitLoop _ 0 data _ = F at h
    cases F with
    | throws _ => cases h
    | ub _ => cases h
    | ok st =>
      simp only [Res.bind] at h
      generalize indexLoop 0 _ _ = I at h
      cases I with
      | throws _ => cases h
      | ub _ => cases h
      | ok idx =>
        simp only [Res.ok.injEq] at h
        rw [← h]
  rw [this]
  exact hm

/-! ## Runs of the program -/

/-- The batch with its greater events only. -/
def minBatch (m : Nat) (b : EventBatch) : EventBatch := { b with neutrons := atLeast m b.neutrons }

theorem one_min (m : Nat) (c : ProcCtx) (hm : c.params.minSize ≤ m) (b b' : EventBatch) (h : c.one b = .ok b') :
    ProcCtx.one { c with params := withMin m c.params } b = .ok (minBatch m b') := by
  unfold ProcCtx.one at h ⊢
  simp only [bind] at h ⊢
  show Res.bind (extractHits c.mode c.chunk b.batch) _ = _
  cases hx : extractHits c.mode c.chunk b.batch with
  | throws _ => rw [hx] at h; cases h
  | ub _ => rw [hx] at h; cases h
  | ok x =>
    rw [hx] at h
    simp only [Res.bind] at h ⊢
    cases hf : (AbsObj.new c.params).fit x.hits with
    | throws _ => rw [hf] at h; cases h
    | ub _ => rw [hf] at h; cases h
    | ok a =>
      rw [hf] at h
      simp only at h
      cases hg : a.getEvents c.solve x.hits with
      | throws _ => rw [hg] at h; cases h
      | ub _ => rw [hg] at h; cases h
      | ok es =>
        rw [hg] at h
        simp only [Res.ok.injEq] at h
        obtain ⟨a', k1, -, k2⟩ := c128_events m c.solve (AbsObj.new c.params) a x.hits es hm hf hg
        have k1' : (AbsObj.new (withMin m c.params)).fit x.hits = .ok a' := k1
        rw [k1']
        simp only [k2, Res.ok.injEq]
        rw [← h]
        rfl

theorem oneAll_min (m : Nat) (c : ProcCtx) (hm : c.params.minSize ≤ m) (bs bs' : List EventBatch) (h : oneAll c bs = .ok bs') :
    oneAll { c with params := withMin m c.params } bs = .ok (bs'.map (minBatch m)) := by
  induction bs generalizing bs' with
  | nil =>
    rw [oneAll, Res.ok.injEq] at h
    rw [oneAll, ← h]
    rfl
  | cons b bs ih =>
    rw [oneAll] at h ⊢
    simp only [bind] at h ⊢
    cases h1 : c.one b with
    | throws _ => rw [h1] at h; cases h
    | ub _ => rw [h1] at h; cases h
    | ok b1 =>
      rw [h1] at h
      simp only [Res.bind] at h
      cases h2 : oneAll c bs with
      | throws _ => rw [h2] at h; cases h
      | ub _ => rw [h2] at h; cases h
      | ok bs1 =>
        rw [h2] at h
        simp only [Res.ok.injEq] at h
        rw [one_min m c hm b b1 h1, ih _ h2]
        simp only [Res.bind]
        rw [← h]
        rfl

theorem chunkEvents_min (m : Nat) (x : CliCtx) (hm : x.params.minSize ≤ m) (buf : Bytes) (c : Clock) (e : List EventBatch × Clock)
    (h : chunkEvents x buf c = .ok e) : chunkEvents { x with params := withMin m x.params } buf c = .ok (e.1.map (minBatch m), e.2) := by
  unfold chunkEvents at h ⊢
  simp only [bind] at h ⊢
  cases h1 : findTPX3H buf with
  | throws _ => rw [h1] at h; cases h
  | ub _ => rw [h1] at h; cases h
  | ok bs =>
    rw [h1] at h
    simp only [Res.bind] at h ⊢
    cases h2 : locate x.mode buf bs c with
    | throws _ => rw [h2] at h; cases h
    | ub _ => rw [h2] at h; cases h
    | ok r =>
      rw [h2] at h
      simp only at h
      cases h3 : oneAll ⟨x.mode, buf, x.params, x.solve⟩ (r.1.map fun b => ⟨b, []⟩) with
      | throws _ => rw [h3] at h; cases h
      | ub _ => rw [h3] at h; cases h
      | ok es =>
        rw [h3] at h
        simp only [Res.ok.injEq] at h
        have k := oneAll_min m ⟨x.mode, buf, x.params, x.solve⟩ hm _ _ h3
        simp only at k
        simp only [k]
        rw [← h]

theorem cliLoop_min (m : Nat) (x : CliCtx) (hm : x.params.minSize ≤ m) (n fuel : Nat) (r : Reader) (c : Clock) (out : List EventBatch)
    (v : List EventBatch × Clock) (h : cliLoop x n fuel r c out = .ok (some v)) :
    cliLoop { x with params := withMin m x.params } n fuel r c (out.map (minBatch m)) = .ok (some (v.1.map (minBatch m), v.2)) := by
  induction fuel generalizing r c out with
  | zero => simp [cliLoop] at h
  | succ fuel ih =>
    rw [cliLoop] at h ⊢
    split_ifs at h ⊢ with h1
    · rw [Res.ok.injEq, Option.some.injEq] at h
      rw [← h]
    · simp only at h ⊢
      split_ifs at h ⊢ with h2
      · rw [Res.ok.injEq, Option.some.injEq] at h
        rw [← h]
      · cases hc : chunkEvents x (r.readChunk n).1 c with
        | throws e => exact absurd hc (chunkEvents_no_throw _ _ _ _)
        | ub u => rw [hc] at h; cases h
        | ok e =>
          rw [hc] at h
          simp only at h
          rw [chunkEvents_min m x hm _ _ _ hc]
          simp only
          rw [← List.map_append]
          exact ih _ _ _ h

/-- C128 for the processing of a file: if it succeeds with a minimum size, it succeeds with every greater one, with the same batches, hits
and times, and of the neutrons with those that have enough hits. -/
theorem c128_run (m : Nat) (x : CliCtx) (hm : x.params.minSize ≤ m) (n fuel : Nat) (file : Bytes) (bs : List EventBatch) (c : Clock)
    (h : cliRun x n fuel file = .ok (some (bs, c))) :
    cliRun { x with params := withMin m x.params } n fuel file =
      .ok (some (bs.map fun b => ⟨b.batch, atLeast m b.neutrons⟩, c)) := by
  unfold cliRun at h ⊢
  cases hr : Reader.open file with
  | throws _ => rw [hr] at h; cases h
  | ub _ => rw [hr] at h; cases h
  | ok r =>
    rw [hr] at h
    exact cliLoop_min m x hm n fuel r _ [] _ h

theorem neutronsOf_min (m : Nat) (bs : List EventBatch) :
    neutronsOf (bs.map fun b => ⟨b.batch, atLeast m b.neutrons⟩) = atLeast m (neutronsOf bs) := by
  induction bs with
  | nil => rfl
  | cons b bs ih =>
    unfold neutronsOf atLeast at ih ⊢
    rw [List.map_cons, List.flatMap_cons, List.flatMap_cons, List.filter_append, ih]

/-- C128 for the files: two runs without failures that differ in the minimum size (and in what else the program may be asked for) record the
same hits; the file of neutrons of the run with the greater size is that of the other without the smaller neutrons. -/
theorem c128_files (m : Nat) (o o' : ProgramOptions) (s s' : Settings) (solve solve' : List GaussRow → F64 × F64)
    (fuel fuel' : Nat) (file : Bytes) (w w' : Outputs) (h : mainCore o s solve (fun _ => {}) fuel file = .ok (.finished w))
    (h' : mainCore o' s' solve' (fun _ => {}) fuel' file = .ok (.finished w')) (hmode : o.mode = o'.mode) (hn : o.chunkSize = o'.chunkSize)
    (hm : s.params.minSize ≤ m) (hp : s'.params = withMin m s.params) :
    w.totalHits = w'.totalHits ∧ (o.outHits ≠ [] → o'.outHits ≠ [] → w.hits = w'.hits) ∧
    ∃ ns, (o.outEvents ≠ [] → HoldsNeutrons w.events ns) ∧ (o'.outEvents ≠ [] → HoldsNeutrons w'.events (atLeast m ns)) ∧
      w.totalNeutrons = BitVec.ofNat 64 ns.length ∧ w'.totalNeutrons = BitVec.ofNat 64 (atLeast m ns).length := by
  obtain ⟨t1, t2⟩ := c124_hits o o' s s' solve solve' _ _ fuel fuel' file w w' h h' hmode hn
  refine ⟨t1, fun a b => t2 a b fun _ => ⟨rfl, rfl⟩, ?_⟩
  obtain ⟨bs, c, hr, -, k1, -, -, k2⟩ := c74_agree_partial o s solve fuel file w h
  obtain ⟨bs', c', hr', -, k1', -, -, k2'⟩ := c74_agree_partial o' s' solve' fuel' file w' h'
  have hr2 := c128_run m _ hm _ _ _ _ _ hr
  rw [← hn, ← hmode, hp] at hr'
  obtain ⟨e, -⟩ := same_batches _ _ _ _ _ _ _ _ _ _ _ _ hr2 hr'
  rw [← e, neutronsOf_min] at k1' k2'
  refine ⟨neutronsOf bs, k1, k1', BitVec.eq_of_toNat_eq ?_, BitVec.eq_of_toNat_eq ?_⟩
  · rw [k2, BitVec.toNat_ofNat]
  · rw [k2', BitVec.toNat_ofNat]

/-- C128 for the images of neutrons: with fewer than `2^32` neutrons no pixel gets more with a greater minimum size. -/
theorem c128_images (m : Nat) (o o' : ProgramOptions) (s s' : Settings) (solve solve' : List GaussRow → F64 × F64)
    (fuel fuel' : Nat) (file : Bytes) (w w' : Outputs) (h : mainCore o s solve (fun _ => {}) fuel file = .ok (.finished w))
    (h' : mainCore o' s' solve' (fun _ => {}) fuel' file = .ok (.finished w')) (hmode : o.mode = o'.mode) (hn : o.chunkSize = o'.chunkSize)
    (hm : s.params.minSize ≤ m) (hp : s'.params = withMin m s.params) (hi : o.needsImages = true) (hi' : o'.needsImages = true)
    (ht : o.tofMode = o'.tofMode) (hneutron : o.tofMode ≠ "hit".toList) (sr : ℚ) (qs : List ℚ) (hsr : s.sr = .fin sr) (hsr' : s'.sr = .fin sr)
    (he : s.edges = .ok (qs.map .fin)) (he' : s'.edges = .ok (qs.map .fin)) (hs : qs.Pairwise (· < ·)) (hl : 2 ≤ qs.length)
    (hlt : w.totalNeutrons.toNat < 2 ^ 32) (hfile : file.length ≤ 2 ^ 51) (i y x : Nat) (a b : Nat) (ha : pixel w.images i y x = some a)
    (hb : pixel w'.images i y x = some b) : b ≤ a := by
  obtain ⟨bs, c, hr, -, -, k1, -, k2⟩ := c74_agree_partial o s solve fuel file w h
  obtain ⟨bs', c', hr', -, -, k1', -, -⟩ := c74_agree_partial o' s' solve' fuel' file w' h'
  have hr2 := c128_run m _ hm _ _ _ _ _ hr
  rw [← hn, ← hmode, hp] at hr'
  obtain ⟨e, -⟩ := same_batches _ _ _ _ _ _ _ _ _ _ _ _ hr2 hr'
  have hlen : (neutronsOf bs).length < 2 ^ 32 := by
    have : (neutronsOf bs).length < 2 ^ 64 := by
      rcases Nat.eq_zero_or_pos o.chunkSize with h0 | h0
      · rw [h0] at hr
        rw [show bs = [] from cliRun_zero _ _ _ _ hr]
        decide
      · have h1 := (c122_events_run _ _ h0 _ _ _ _ hr).1
        have h2 := (c122_hits _ _ h0 _ _ _ _ hr).2.2
        have h3 : (neutronsOf bs).length ≤ (bs.flatMap fun b => b.batch.hits).length := h1
        omega
    rw [k2, Nat.mod_eq_of_lt this] at hlt
    exact hlt
  have p1 := k1 hi sr qs hsr he hs hl i y x
  have p2 := k1' hi' sr qs hsr' he' hs hl i y x
  rw [ha] at p1
  rw [hb, ← ht] at p2
  split_ifs at p1 p2
  rw [Option.some.injEq] at p1 p2
  have hmd : String.ofList o.tofMode ≠ "hit" := by
    intro hh
    apply hneutron
    rw [← hh, String.toList_ofList]
  have le : ∀ l : List EventBatch, entryList (String.ofList o.tofMode) l =
      (neutronsOf l).map fun n => ⟨n.x, n.y, F64.mul n.tof (.fin 25)⟩ := by
    intro l
    unfold entryList neutronsOf
    simp only [if_neg hmd, List.map_flatMap]
  rw [le] at p1 p2
  rw [← e, neutronsOf_min] at p2
  unfold counted at p1 p2
  have c1 : ∀ (P : Entry → Bool), ((atLeast m (neutronsOf bs)).map fun n => (⟨n.x, n.y, F64.mul n.tof (.fin 25)⟩ : Entry)).countP P ≤
      ((neutronsOf bs).map fun n => (⟨n.x, n.y, F64.mul n.tof (.fin 25)⟩ : Entry)).countP P := fun P =>
    List.Sublist.countP_le (List.Sublist.map _ List.filter_sublist)
  have c2 : ∀ (P : Entry → Bool), ((neutronsOf bs).map fun n => (⟨n.x, n.y, F64.mul n.tof (.fin 25)⟩ : Entry)).countP P < 2 ^ 32 := by
    intro P
    refine lt_of_le_of_lt List.countP_le_length ?_
    rw [List.length_map]
    exact hlen
  rw [Nat.mod_eq_of_lt (c2 _)] at p1
  rw [Nat.mod_eq_of_lt (lt_of_le_of_lt (c1 _) (c2 _))] at p2
  rw [p1, p2]
  exact c1 _

/-! ### The program ends as well -/

/-- Images of the same size. -/
def SameShape (a b : Stack) : Prop := a.map (List.map List.length) = b.map (List.map List.length)

theorem set_same {α : Type*} (l : List α) (i : Nat) (v : α) (h : l[i]? = some v) : l.set i v = l := by
  obtain ⟨h1, h2⟩ := List.getElem?_eq_some_iff.mp h
  rw [← h2]
  exact List.set_getElem_self h1

theorem bump_shape (im im2 : Stack) (hs : SameShape im im2) (b y x : Nat) (im1 : Stack) (h : bump im b y x = .ok im1) :
    SameShape im1 im ∧ ∃ im2', bump im2 b y x = .ok im2' ∧ SameShape im2' im2 := by
  have key : ∀ (s s1 : Stack), bump s b y x = .ok s1 → SameShape s1 s := by
    intro s s1 h
    unfold bump at h
    split at h
    · cases h
    · rename_i img hi
      split at h
      · cases h
      · rename_i row hr
        split at h
        · cases h
        · rename_i v hv
          rw [Res.ok.injEq] at h
          rw [← h]
          unfold SameShape
          have e : (img.set y (row.set x (v + 1))).map List.length = img.map List.length := by
            rw [List.map_set, List.length_set]
            exact set_same _ _ _ (by rw [List.getElem?_map, hr]; rfl)
          rw [List.map_set, e]
          exact set_same _ _ _ (by rw [List.getElem?_map, hi]; rfl)
  have key2 : ∃ im2', bump im2 b y x = .ok im2' := by
    unfold bump at h ⊢
    split at h
    · cases h
    · rename_i img hi
      split at h
      · cases h
      · rename_i row hr
        split at h
        · cases h
        · rename_i v hv
          have e1 : (im2.map (List.map List.length))[b]? = some (img.map List.length) := by
            rw [← hs, List.getElem?_map, hi]; rfl
          rw [List.getElem?_map] at e1
          obtain ⟨img2, hi2, e2⟩ := Option.map_eq_some_iff.mp e1
          have e3 : (img2.map List.length)[y]? = some row.length := by
            rw [e2, List.getElem?_map, hr]; rfl
          rw [List.getElem?_map] at e3
          obtain ⟨row2, hr2, e4⟩ := Option.map_eq_some_iff.mp e3
          have hx : x < row.length := (List.getElem?_eq_some_iff.mp hv).1
          have hv2 : row2[x]? = some row2[x] := List.getElem?_eq_getElem (by omega)
          rw [hi2]
          simp only [hr2, hv2]
          exact ⟨_, rfl⟩
  obtain ⟨im2', h2⟩ := key2
  exact ⟨key _ _ h, im2', h2, key _ _ h2⟩

theorem SameShape.length {a b : Stack} (h : SameShape a b) : a.length = b.length := by
  have := congrArg List.length h
  simpa using this

theorem addEntry_shape (sr : F64) (edges : List F64) (d : Int) (e : Entry) (im im2 im1 : Stack) (hs : SameShape im im2)
    (h : addEntry sr edges d im e = .ok im1) : SameShape im1 im ∧ ∃ im2', addEntry sr edges d im2 e = .ok im2' ∧ SameShape im2' im2 := by
  unfold addEntry at h ⊢
  rw [← hs.length]
  simp only [bind] at h ⊢
  cases hp : placeEntry sr edges im.length d e with
  | throws _ => rw [hp] at h; cases h
  | ub _ => rw [hp] at h; cases h
  | ok r =>
    rw [hp] at h
    simp only [Res.bind] at h ⊢
    cases r with
    | none =>
      simp only [Res.ok.injEq] at h
      exact ⟨by rw [h]; rfl, im2, rfl, rfl⟩
    | some t => exact bump_shape im im2 hs _ _ _ im1 h

theorem addEntries_shape (sr : F64) (edges : List F64) (d : Int) (es es2 : List Entry) (hsub : List.Sublist es2 es) (im im2 im1 : Stack)
    (hs : SameShape im im2) (h : addEntries sr edges d im es = .ok im1) :
    SameShape im1 im ∧ ∃ im2', addEntries sr edges d im2 es2 = .ok im2' ∧ SameShape im2' im2 := by
  induction hsub generalizing im im2 with
  | slnil =>
    rw [addEntries, Res.ok.injEq] at h
    exact ⟨by rw [h]; rfl, im2, rfl, rfl⟩
  | cons a _ ih =>
    rw [addEntries] at h
    simp only [bind] at h
    cases ha : addEntry sr edges d im a with
    | throws _ => rw [ha] at h; cases h
    | ub _ => rw [ha] at h; cases h
    | ok imA =>
      rw [ha] at h
      obtain ⟨k1, -⟩ := addEntry_shape sr edges d a im im2 imA hs ha
      obtain ⟨j1, j2⟩ := ih imA im2 (k1.trans hs) h
      exact ⟨j1.trans k1, j2⟩
  | cons_cons a _ ih =>
    rw [addEntries] at h ⊢
    simp only [bind] at h ⊢
    cases ha : addEntry sr edges d im a with
    | throws _ => rw [ha] at h; cases h
    | ub _ => rw [ha] at h; cases h
    | ok imA =>
      rw [ha] at h
      obtain ⟨k1, imB, k2, k3⟩ := addEntry_shape sr edges d a im im2 imA hs ha
      rw [k2]
      obtain ⟨j1, im2', j2, j3⟩ := ih imA imB (k1.trans (hs.trans k3.symm)) h
      exact ⟨j1.trans k1, im2', j2, j3.trans k3⟩

theorem updateImages_min (m : Nat) (sr : F64) (edges : List F64) (mode : String) (im im2 im1 : Stack) (b : EventBatch)
    (hs : SameShape im im2) (h : updateImages sr edges mode im b = .ok im1) :
    ∃ im2', updateImages sr edges mode im2 (minBatch m b) = .ok im2' ∧ SameShape im1 im2' := by
  unfold updateImages at h ⊢
  have hnil : im = [] ↔ im2 = [] := by rw [← List.length_eq_zero_iff, ← List.length_eq_zero_iff, hs.length]
  by_cases h0 : im = [] ∨ edges.length < 2
  · rw [if_pos h0, Res.ok.injEq] at h
    rw [if_pos (h0.imp_left hnil.mp)]
    exact ⟨im2, rfl, by rw [← h]; exact hs⟩
  · rw [if_neg h0] at h
    rw [if_neg (fun h1 => h0 (h1.imp_left hnil.mpr))]
    simp only [bind] at h ⊢
    cases hd : dimOf sr with
    | throws _ => rw [hd] at h; cases h
    | ub _ => rw [hd] at h; cases h
    | ok d =>
      rw [hd] at h
      simp only [Res.bind] at h ⊢
      cases he : entriesOf mode b with
      | throws _ => rw [he] at h; cases h
      | ub _ => rw [he] at h; cases h
      | ok es =>
        rw [he] at h
        simp only at h
        obtain ⟨es2, g1, g2⟩ : ∃ es2, entriesOf mode (minBatch m b) = .ok es2 ∧ List.Sublist es2 es := by
          unfold entriesOf at he ⊢
          split_ifs at he ⊢
          · exact ⟨es, he, List.Sublist.refl _⟩
          · rw [Res.ok.injEq] at he
            exact ⟨_, rfl, by rw [← he]; exact List.Sublist.map _ List.filter_sublist⟩
        rw [g1]
        obtain ⟨k1, im2', k2, k3⟩ := addEntries_shape sr edges d es es2 g2 im im2 im1 hs h
        exact ⟨im2', k2, k1.trans (hs.trans k3.symm)⟩

/-- Outputs from which the smaller neutrons may be missing. -/
structure Fewer (w w2 : Outputs) : Prop where
  hits : w.hits = w2.hits
  events : GroupReady w2.events ['n', 'e', 'u', 't', 'r', 'o', 'n', 's'] (neutronAttrs.map Prod.fst)
  images : SameShape w.images w2.images

theorem outputBatch_min (m : Nat) (o : ProgramOptions) (sr : F64) (es : List F64) (b : EventBatch) (hb : ∀ n ∈ b.neutrons, n.nHits < 2 ^ 31)
    (w w1 w2 : Outputs) (hw : Fewer w w2) (h : outputBatch o sr es {} b w = .ok (w1, .normal)) :
    ∃ w2', outputBatch o sr es {} (minBatch m b) w2 = .ok (w2', .normal) ∧ Fewer w1 w2' := by
  unfold outputBatch at h ⊢
  split at h
  · cases h
  · simp at h
  · rename_i hh hh1
    split at h
    · cases h
    · simp at h
    · simp at h
    · rename_i he he1
      split at h
      · cases h
      · cases h
      · rename_i im him
        simp only [Res.ok.injEq, Prod.mk.injEq, and_true] at h
        obtain ⟨e, he2, he3⟩ : ∃ e, (if o.outEvents = [] then .ok (w2.events, false)
            else appendNeutrons none (fun _ => none) (minBatch m b).neutrons w2.events : Res (H5 × Bool)) = .ok (e, false) ∧
            GroupReady e ['n', 'e', 'u', 't', 'r', 'o', 'n', 's'] (neutronAttrs.map Prod.fst) := by
          split_ifs
          · exact ⟨_, rfl, hw.events⟩
          · obtain ⟨f, h1, h2, -⟩ := appendNeutrons_ok (minBatch m b).neutrons (fun n hn => hb n (List.mem_of_mem_filter hn)) w2.events hw.events
            exact ⟨f, h1, h2⟩
        obtain ⟨im2, hi1, hi2⟩ : ∃ im2, (if o.needsImages then updateImages sr es (String.ofList o.tofMode) w2.images (minBatch m b)
            else .ok w2.images : Res Stack) = .ok im2 ∧ SameShape im im2 := by
          by_cases hn : o.needsImages = true
          · rw [if_pos hn] at him ⊢
            exact updateImages_min m sr es _ _ _ _ b hw.images him
          · rw [if_neg hn] at him ⊢
            rw [Res.ok.injEq] at him
            exact ⟨_, rfl, by rw [← him]; exact hw.images⟩
        rw [hw.hits] at hh1
        have hh2 : (if o.outHits = [] then .ok w2.hits else appendHits none (fun _ => none) (minBatch m b).batch.hits w2.hits : Res H5) = .ok hh := hh1
        simp only [hh2, he2, hi1]
        exact ⟨_, rfl, by rw [← h], he3, by rw [← h]; exact hi2⟩

theorem outputBatches_min (m : Nat) (o : ProgramOptions) (sr : F64) (es : List F64) (k : Nat) (bs : List EventBatch)
    (hb : ∀ b ∈ bs, ∀ n ∈ b.neutrons, n.nHits < 2 ^ 31) (w w1 w2 : Outputs) (hw : Fewer w w2)
    (h : outputBatches o sr es (fun _ => {}) k bs w = .ok (w1, .normal)) :
    ∃ w2', outputBatches o sr es (fun _ => {}) k (bs.map (minBatch m)) w2 = .ok (w2', .normal) := by
  induction bs generalizing k w w2 with
  | nil => exact ⟨w2, rfl⟩
  | cons b bs ih =>
    rw [outputBatches] at h
    rw [List.map_cons, outputBatches]
    split at h
    · rename_i w3 h3
      obtain ⟨w4, h4, h5⟩ := outputBatch_min m o sr es b (hb b (by simp)) w w3 w2 hw h3
      simp only [h4]
      exact ih (k + 1) (fun b hb' => hb b (by simp [hb'])) w3 w4 h5 h
    · rename_i h1
      exact absurd h (h1 w1)

/-- C128 for the program: if it ends normally with a minimum size, it does so with every greater one. -/
theorem c128_ends (m : Nat) (o : ProgramOptions) (s : Settings) (solve : List GaussRow → F64 × F64) (fuel : Nat) (file : Bytes) (w : Outputs)
    (hm : s.params.minSize ≤ m) (h : mainCore o s solve (fun _ => {}) fuel file = .ok (.finished w)) :
    ∃ w', mainCore o { s with params := withMin m s.params } solve (fun _ => {}) fuel file = .ok (.finished w') := by
  unfold mainCore at h ⊢
  cases hr : Reader.open file with
  | throws _ => rw [hr] at h; cases h
  | ub _ => rw [hr] at h; cases h
  | ok r =>
    rw [hr] at h
    simp only at h ⊢
    by_cases h1 : o.outHits = o.input ∨ o.outEvents = o.input
    · rw [if_pos h1] at h; cases h
    by_cases h2 : o.outHits ≠ [] ∧ o.outHits = o.outEvents
    · rw [if_neg h1, if_pos h2, Res.ok.injEq] at h; cases h
    rw [if_neg h1, if_neg h2] at h ⊢
    split at h
    · cases h
    · cases h
    · rename_i es im him
      rw [mainLoop_finished] at h
      obtain ⟨bs, c, k1, k2⟩ := h
      have hrun : cliRun ⟨o.mode, s.params, solve⟩ o.chunkSize fuel file = .ok (some (bs, c)) := by
        unfold cliRun
        rw [hr]
        exact k1 []
      have hn : ∀ b ∈ bs, ∀ n ∈ b.neutrons, n.nHits < 2 ^ 31 := by
        intro b hb n hn
        have hf := cliRun_batches _ _ _ _ _ _ hrun b hb
        have e1 := events_size _ _ _ hf.2 n hn
        have e2 := hf.ranges.1
        omega
      obtain ⟨w', hw'⟩ := outputBatches_min m o s.sr es 0 bs hn _ w ⟨[], [], im, 0, 0⟩
        ⟨rfl, by intro g hg; simp at hg, rfl⟩ k2
      refine ⟨w', (mainLoop_finished _ _ _ _ _ _ _ _ _ _ _).mpr ⟨bs.map (minBatch m), c, ?_, hw'⟩⟩
      have k3 := cliLoop_min m ⟨o.mode, s.params, solve⟩ hm o.chunkSize fuel r Clock.zero [] (bs, c) (k1 [])
      simp only [List.map_nil] at k3
      obtain ⟨bs2, e1, e2⟩ := cliLoop_result _ _ _ _ _ _ _ _ k3
      rw [List.nil_append] at e1
      rw [e1]
      exact e2

/-! ## Radius and time range -/

/-- Hits at the given places and times (in ticks). -/
def placedHits (l : List (Int × Int × Nat)) : List Hit := l.map fun p => ⟨p.1, p.2.1, 10, 0, 0, some 100, BitVec.ofNat 64 p.2.2⟩

/-- How many neutrons the clustering object finds. -/
def found (p : AbsParams) (hs : List Hit) : Res Nat :=
  ((AbsObj.new p).fit hs).bind fun a => (a.getEvents (fun _ => (.nan, .nan)) hs).bind fun es => .ok es.length

/-- A greater radius can give more neutrons: four hits make 2 neutrons with radius 5 and 3 with radius 6. -/
theorem c128_false_radius : ∃ hs : List Hit, found ⟨.fin 5, 1, 75⟩ hs = .ok 2 ∧ found ⟨.fin 6, 1, 75⟩ hs = .ok 3 :=
  ⟨placedHits [(0, 10, 0), (6, 10, 3), (6, 15, 6), (6, 5, 6)], by decide +kernel, by decide +kernel⟩

/-- So can a longer time range: 2 neutrons with 75 ns and 3 with 100 ns. -/
theorem c128_false_range : ∃ hs : List Hit, found ⟨.fin 5, 1, 75⟩ hs = .ok 2 ∧ found ⟨.fin 5, 1, 100⟩ hs = .ok 3 :=
  ⟨placedHits [(6, 10, 0), (6, 10, 4), (6, 15, 6), (6, 5, 6)], by decide +kernel, by decide +kernel⟩

/-- `c128_events`: three hits, two of them close together, minimum sizes 1 and 2. -/
example : ∃ a es, (AbsObj.new ⟨.fin 5, 1, 75⟩).fit (placedHits [(6, 10, 0), (7, 10, 1), (60, 5, 1)]) = .ok a ∧
    a.getEvents (fun _ => (.nan, .nan)) (placedHits [(6, 10, 0), (7, 10, 1), (60, 5, 1)]) = .ok es ∧ es.map Neutron.nHits = [2, 1] ∧
    (atLeast 2 es).map Neutron.nHits = [2] := by
  have h : (((AbsObj.new ⟨.fin 5, 1, 75⟩).fit (placedHits [(6, 10, 0), (7, 10, 1), (60, 5, 1)])).bind fun a =>
      (a.getEvents (fun _ => (.nan, .nan)) (placedHits [(6, 10, 0), (7, 10, 1), (60, 5, 1)])).bind fun es =>
        .ok (es.map Neutron.nHits, (atLeast 2 es).map Neutron.nHits)) = .ok ([2, 1], [2]) := by decide +kernel
  cases hf : (AbsObj.new ⟨.fin 5, 1, 75⟩).fit (placedHits [(6, 10, 0), (7, 10, 1), (60, 5, 1)]) with
  | throws _ => rw [hf] at h; cases h
  | ub _ => rw [hf] at h; cases h
  | ok a =>
    rw [hf] at h
    simp only [Res.bind] at h
    cases hg : a.getEvents (fun _ => (.nan, .nan)) (placedHits [(6, 10, 0), (7, 10, 1), (60, 5, 1)]) with
    | throws _ => rw [hg] at h; cases h
    | ub _ => rw [hg] at h; cases h
    | ok es =>
      rw [hg] at h
      simp only [Res.ok.injEq, Prod.mk.injEq] at h
      exact ⟨a, es, rfl, hg, h.1, h.2⟩

/-- `c128_files` and `c128_images`: one hit is a neutron with minimum size 1 and none with 2. -/
example : ∃ w w', mainCore { hitsAndEvents with outTof := "d".toList, tofMode := "neutron".toList } plainSettings (fun _ => (.nan, .nan)) (fun _ => {})
      2 oneHit = .ok (.finished w) ∧
    mainCore { hitsAndEvents with outTof := "d".toList, tofMode := "neutron".toList } pairSettings (fun _ => (.nan, .nan)) (fun _ => {})
      2 oneHit = .ok (.finished w') ∧ pairSettings.params = withMin 2 plainSettings.params ∧ plainSettings.params.minSize ≤ 2 ∧
    w.totalNeutrons = 1 ∧ w'.totalNeutrons = 0 ∧ w.images ≠ [] ∧ w'.images ≠ [] ∧ oneHit.length ≤ 2 ^ 51 := by
  obtain ⟨w, h, g⟩ := finished_of (P := fun w => w.totalNeutrons = 1 ∧ w.images ≠ []) (mainCore { hitsAndEvents with outTof := "d".toList, tofMode := "neutron".toList }
    plainSettings (fun _ => (.nan, .nan)) (fun _ => {}) 2 oneHit) (by decide +kernel)
  obtain ⟨w', h', g'⟩ := finished_of (P := fun w => w.totalNeutrons = 0 ∧ w.images ≠ []) (mainCore { hitsAndEvents with outTof := "d".toList, tofMode := "neutron".toList }
    pairSettings (fun _ => (.nan, .nan)) (fun _ => {}) 2 oneHit) (by decide +kernel)
  exact ⟨w, w', h, h', rfl, by decide, g.1, g'.1, g.2, g'.2, by decide⟩

end Verif.Props
