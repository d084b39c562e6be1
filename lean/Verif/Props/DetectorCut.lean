import Verif.Spec.DetectorCut
import Verif.Props.DetectorImages
import Verif.Props.Cut

/-!
# C110: a measurement whose file is read in several pieces
-/

namespace Verif.Props

open Verif Verif.Spec

/-! ## The signals that are kept -/

theorem packets_pos (s : Signal) : 0 < s.packets.length := by
  cases s with
  | trigger t => rw [packets_trigger]; simp
  | clock t => rw [packets_clock]; simp
  | pixel t c r o f => rw [packets_pixel]; simp

theorem keepSignals_prefix (room : Nat) (ss : List Signal) : keepSignals room ss <+: ss := by
  induction ss generalizing room with
  | nil => exact List.prefix_rfl
  | cons s ss ih =>
    unfold keepSignals
    split_ifs with h
    · exact List.prefix_cons_inj s |>.mpr (ih _)
    · exact List.nil_prefix

/-- The packets before the cut are those of the kept signals and perhaps the first half of a clock. -/
theorem keepSignals_packets (room : Nat) (ss : List Signal) :
    (ss.flatMap Signal.packets).take room = (keepSignals room ss).flatMap Signal.packets ∨
    ∃ t, (ss.flatMap Signal.packets).take room = (keepSignals room ss).flatMap Signal.packets ++ [clockLow t] := by
  induction ss generalizing room with
  | nil => left; simp [keepSignals]
  | cons s ss ih =>
    unfold keepSignals
    by_cases h : s.packets.length ≤ room
    · rw [if_pos h, List.flatMap_cons, List.flatMap_cons, List.take_append, List.take_of_length_le h]
      rcases ih (room - s.packets.length) with e | ⟨t, e⟩
      · left; rw [e]
      · right; exact ⟨t, by rw [e, List.append_assoc]⟩
    · rw [if_neg h, List.flatMap_cons, List.flatMap_nil, List.take_append,
        show room - s.packets.length = 0 by omega, List.take_zero, List.append_nil]
      cases s with
      | trigger t => rw [packets_trigger] at *; left; simp at h; simp [h]
      | pixel t c r o f => rw [packets_pixel] at *; left; simp at h; simp [h]
      | clock t =>
        rw [packets_clock] at *
        simp at h
        rcases room with _ | _ | room
        · left; rfl
        · right; exact ⟨t, rfl⟩
        · omega

theorem clockLow_global (chip : Int) (t : Times) (g : Nat) :
    hitsG chip t [clockLow g] = [] ∧ (timesG t [clockLow g]).tdc = t.tdc ∧ (timesG t [clockLow g]).gdc = t.gdc := by
  obtain ⟨l1, l2, l3, l4, l5⟩ := clockLow_fields g
  refine ⟨?_, ?_, ?_⟩
  · rw [hitsG_cons, if_neg (fun h => l3 h.1)]; rfl
  · simp only [timesG, List.foldl_cons, List.foldl_nil, nextG, if_neg l2, if_pos l1, if_pos l4]
  · simp only [timesG, List.foldl_cons, List.foldl_nil, nextG, if_neg l2, if_pos l1, if_pos l4]

theorem clockLow_trigger (chip : Int) (t : Times) (g : Nat) :
    hitsT chip t [clockLow g] = [] ∧ (timesT t [clockLow g]).tdc = t.tdc := by
  obtain ⟨l1, l2, l3, l4, l5⟩ := clockLow_fields g
  refine ⟨?_, ?_⟩
  · rw [hitsT_cons, if_neg (fun h => l3 h.1)]; rfl
  · simp only [timesT, List.foldl_cons, List.foldl_nil, nextT, if_neg l2]

theorem timesT_append (t : Times) (a b : List U64) : timesT t (a ++ b) = timesT (timesT t a) b := by
  unfold timesT; rw [List.foldl_append]

theorem cut_hitsG (chip : Int) (p : Past) (t : Times) (room : Nat) (ss : List Signal) (hk : Keeps p t)
    (hp : p.trigger < 2 ^ 48 ∧ p.clock < 2 ^ 48 - 2 ^ 30) (hs : AllTimelyG p (keepSignals room ss)) :
    hitsG chip t ((ss.flatMap Signal.packets).take room) = trueHits true chip p (keepSignals room ss) ∧
    Keeps ((keepSignals room ss).foldl Past.after p) (timesG t ((ss.flatMap Signal.packets).take room)) := by
  obtain ⟨g1, g2⟩ := c92_global chip (keepSignals room ss) p t hk hp hs
  rcases keepSignals_packets room ss with e | ⟨g, e⟩
  · rw [e]; exact ⟨g1, g2⟩
  · rw [e, hitsG_append, timesG_append]
    obtain ⟨c1, c2, c3⟩ := clockLow_global chip (timesG t ((keepSignals room ss).flatMap Signal.packets)) g
    rw [c1, List.append_nil]
    exact ⟨g1, c2.trans g2.1, c3.trans g2.2⟩

theorem cut_hitsT (chip : Int) (p : Past) (t : Times) (room : Nat) (ss : List Signal) (hk : t.tdc = p.trigger)
    (hp : p.trigger < 2 ^ 31) (hs : AllTimelyT p (keepSignals room ss)) :
    hitsT chip t ((ss.flatMap Signal.packets).take room) = trueHits false chip p (keepSignals room ss) ∧
    (timesT t ((ss.flatMap Signal.packets).take room)).tdc = ((keepSignals room ss).foldl Past.after p).trigger := by
  obtain ⟨g1, g2⟩ := c92_trigger chip (keepSignals room ss) p t hk hp hs
  rcases keepSignals_packets room ss with e | ⟨g, e⟩
  · rw [e]; exact ⟨g1, g2⟩
  · rw [e, hitsT_append, timesT_append]
    obtain ⟨c1, c2⟩ := clockLow_trigger chip (timesT t ((keepSignals room ss).flatMap Signal.packets)) g
    rw [c1, List.append_nil]
    exact ⟨g1, c2.trans g2⟩

/-- The hits of the chunks that are left are the true hits of the signals that are left. -/
theorem c110_chunks (m : Mode) (n : Nat) (rs : List Readout) (hok : ∀ r ∈ rs, r.Ok) (o : Nat) (p : Past) (t : Times) (hk : t.tdc = p.trigger)
    (hg : m = .gdc → t.gdc = p.clock ∧ p.trigger < 2 ^ 48 ∧ p.clock < 2 ^ 48 - 2 ^ 30) (ht : m = .tdc → p.trigger < 2 ^ 31)
    (h : TimelyFile m p (keptReadouts n o rs)) :
    chunkHits m t (cutChunks n o (rs.map Readout.chunk)) = trueReadouts (needsClock m) p (keptReadouts n o rs) := by
  induction rs generalizing o p t with
  | nil => rfl
  | cons r rs ih =>
    have hchip := (readout_header (hok r (by simp))).2
    have hok' : ∀ r ∈ rs, r.Ok := fun r' h' => hok r' (by simp [h'])
    have hpk : r.chunk.packets = r.signals.flatMap Signal.packets := rfl
    have hlen : r.chunk.packets.length = r.packets.length := rfl
    rw [List.map_cons]
    cases m with
    | gdc =>
      simp only [TimelyFile, keptReadouts, List.flatMap_cons] at h
      obtain ⟨h1, h2⟩ := allTimelyG_append.mp h
      obtain ⟨k1, k2⟩ := hg rfl
      obtain ⟨g1, g2⟩ := cut_hitsG r.chip p t (n - o % n - 1) r.signals ⟨hk, k1⟩ k2 h1
      have ih' := ih hok' (o + 1 + r.packets.length) _ _ g2.1 (fun _ => ⟨g2.2, past_boundedG h1 k2⟩) (by simp) h2
      simp only [cutChunks, chunkHits, keptReadouts, trueReadouts]
      rw [hchip, hlen, hpk]
      exact congrArg₂ _ g1 ih'
    | tdc =>
      simp only [TimelyFile, keptReadouts, List.flatMap_cons] at h
      obtain ⟨h1, h2⟩ := allTimelyT_append.mp h
      obtain ⟨g1, g2⟩ := cut_hitsT r.chip p t (n - o % n - 1) r.signals hk (ht rfl) h1
      have ih' := ih hok' (o + 1 + r.packets.length) _ _ g2 (by simp) (fun _ => past_boundedT h1 (ht rfl)) h2
      simp only [cutChunks, chunkHits, keptReadouts, trueReadouts]
      rw [hchip, hlen, hpk]
      exact congrArg₂ _ g1 ih'

/-! ## Only pixels are lost -/

theorem pixels_past {l : List Signal} (h : ∀ s ∈ l, s.IsPixel) (p : Past) : l.foldl Past.after p = p := by
  induction l generalizing p with
  | nil => rfl
  | cons s l ih =>
    rw [List.foldl_cons]
    cases s with
    | pixel => exact ih (fun s hs => h s (by simp [hs])) p
    | trigger t => exact (h (.trigger t) (by simp)).elim
    | clock t => exact (h (.clock t) (by simp)).elim

theorem trueHits_append (b : Bool) (chip : Int) (p : Past) (l l' : List Signal) :
    trueHits b chip p (l ++ l') = trueHits b chip p l ++ trueHits b chip (l.foldl Past.after p) l' := by
  induction l generalizing p with
  | nil => rfl
  | cons s l ih => rw [List.cons_append, trueHits, trueHits, ih, List.append_assoc]; rfl

theorem trueHits_length (b : Bool) (chip : Int) (p : Past) (l : List Signal) : (trueHits b chip p l).length ≤ l.length := by
  induction l generalizing p with
  | nil => simp [trueHits]
  | cons s l ih =>
    rw [trueHits, List.length_append, List.length_cons]
    have := ih (p.after s)
    have : (s.hit b chip p).length ≤ 1 := by
      cases s with
      | pixel => unfold Signal.hit; split_ifs <;> simp
      | trigger => simp [Signal.hit]
      | clock => simp [Signal.hit]
    omega

/-- C110: if no trigger and no clock is lost, the hits of every readout are the first of its true hits, as many as there are kept, and at most
the lost signals are missing. -/
theorem c110_prefix (b : Bool) (n : Nat) (rs : List Readout) (o : Nat) (p : Past) (h : ∀ s ∈ lostSignals n o rs, s.IsPixel) :
    List.Forall₂ (fun a c => a <+: c) (trueReadouts b p (keptReadouts n o rs)) (trueReadouts b p rs) ∧
    (trueReadouts b p rs).flatten.length ≤ (trueReadouts b p (keptReadouts n o rs)).flatten.length + (lostSignals n o rs).length := by
  induction rs generalizing o p with
  | nil => exact ⟨.nil, by simp [keptReadouts, trueReadouts]⟩
  | cons r rs ih =>
    simp only [lostSignals, List.mem_append] at h
    obtain ⟨d, hd⟩ := keepSignals_prefix (n - o % n - 1) r.signals
    have hdrop : r.signals.drop (keepSignals (n - o % n - 1) r.signals).length = d :=
      (congrArg (List.drop _) hd.symm).trans List.drop_left
    rw [hdrop] at h
    have hpast : r.signals.foldl Past.after p = (keepSignals (n - o % n - 1) r.signals).foldl Past.after p := by
      conv_lhs => rw [← hd]
      rw [List.foldl_append, pixels_past fun s hs => h s (.inl hs)]
    obtain ⟨i1, i2⟩ := ih (o + 1 + r.packets.length) ((keepSignals (n - o % n - 1) r.signals).foldl Past.after p) fun s hs => h s (.inr hs)
    simp only [keptReadouts, trueReadouts, lostSignals]
    rw [hpast, hdrop]
    have e : trueHits b r.chip p r.signals = trueHits b r.chip p (keepSignals (n - o % n - 1) r.signals) ++
        trueHits b r.chip ((keepSignals (n - o % n - 1) r.signals).foldl Past.after p) d := by
      conv_lhs => rw [← hd]
      exact trueHits_append _ _ _ _ _
    refine ⟨.cons ⟨_, e.symm⟩ i1, ?_⟩
    have hl := trueHits_length b r.chip ((keepSignals (n - o % n - 1) r.signals).foldl Past.after p) d
    rw [e]
    simp only [List.flatten_cons, List.length_append]
    omega

/-- C110: if no trigger and no clock is lost, the signals that are left are timely when all are. -/
theorem c110_timely (m : Mode) (n : Nat) (rs : List Readout) (o : Nat) (p : Past) (h : ∀ s ∈ lostSignals n o rs, s.IsPixel)
    (ht : TimelyFile m p rs) : TimelyFile m p (keptReadouts n o rs) := by
  induction rs generalizing o p with
  | nil => exact ht
  | cons r rs ih =>
    simp only [lostSignals, List.mem_append] at h
    obtain ⟨d, hd⟩ := keepSignals_prefix (n - o % n - 1) r.signals
    have hdrop : r.signals.drop (keepSignals (n - o % n - 1) r.signals).length = d :=
      (congrArg (List.drop _) hd.symm).trans List.drop_left
    rw [hdrop] at h
    have hpast : r.signals.foldl Past.after p = (keepSignals (n - o % n - 1) r.signals).foldl Past.after p := by
      conv_lhs => rw [← hd]
      rw [List.foldl_append, pixels_past fun s hs => h s (.inl hs)]
    have i := fun ht => ih (o + 1 + r.packets.length) ((keepSignals (n - o % n - 1) r.signals).foldl Past.after p) (fun s hs => h s (.inr hs)) ht
    cases m with
    | gdc =>
      simp only [TimelyFile, keptReadouts, List.flatMap_cons] at *
      obtain ⟨h1, h2⟩ := allTimelyG_append.mp ht
      rw [hpast] at h2
      rw [← hd] at h1
      exact allTimelyG_append.mpr ⟨(allTimelyG_append.mp h1).1, i h2⟩
    | tdc =>
      simp only [TimelyFile, keptReadouts, List.flatMap_cons] at *
      obtain ⟨h1, h2⟩ := allTimelyT_append.mp ht
      rw [hpast] at h2
      rw [← hd] at h1
      exact allTimelyT_append.mpr ⟨(allTimelyT_append.mp h1).1, i h2⟩

theorem keepSignals_lost (room : Nat) (ss : List Signal) :
    (ss.drop (keepSignals room ss).length).length ≤ (ss.flatMap Signal.packets).length - room := by
  induction ss generalizing room with
  | nil => simp
  | cons s ss ih =>
    have hall : ∀ l : List Signal, l.length ≤ (l.flatMap Signal.packets).length := by
      intro l
      induction l with
      | nil => simp
      | cons a l ih => rw [List.flatMap_cons, List.length_append, List.length_cons]; have := packets_pos a; omega
    unfold keepSignals
    rw [List.flatMap_cons, List.length_append]
    split_ifs with h
    · have := ih (room - s.packets.length)
      rw [List.length_cons, List.drop_succ_cons]
      omega
    · have := hall ss
      simp only [List.length_nil, List.drop_zero, List.length_cons]
      omega

/-- C110: at most as many signals are lost as packets are cut off, which is at most 8191 for every cut (`c90_bound`). -/
theorem c110_lost (n : Nat) (rs : List Readout) (o : Nat) : (lostSignals n o rs).length ≤ cutOff n o (rs.map Readout.chunk) := by
  induction rs generalizing o with
  | nil => simp [lostSignals]
  | cons r rs ih =>
    rw [List.map_cons, cutOff, lostSignals, List.length_append]
    have h1 := keepSignals_lost (n - o % n - 1) r.signals
    have h2 := ih (o + 1 + r.packets.length)
    have h3 : r.chunk.packets.length = r.packets.length := rfl
    have h4 : r.packets.length = (r.signals.flatMap Signal.packets).length := rfl
    rw [h3]
    omega

/-! ## The program -/

/-- The batches of a run over the file of a detector in pieces of `n` words. -/
theorem kept_batches (x : CliCtx) (n : Nat) (hn0 : 0 < n) (rs : List Readout) (hrs : rs ≠ []) (hok : ∀ r ∈ rs, r.Ok)
    (hsig : ∀ r ∈ rs, ∀ s ∈ r.signals, SignalOk s) (htime : TimelyFile x.mode ⟨0, 0⟩ (keptReadouts n 0 rs))
    (fuel : Nat) (bs : List EventBatch) (c : Clock) (h : cliRun x (8 * n) fuel (detectorFile rs) = .ok (some (bs, c))) :
    bs.map (fun b => b.batch.hits) = trueReadouts (needsClock x.mode) ⟨0, 0⟩ (keptReadouts n 0 rs) := by
  rw [(c90_hits x n hn0 (rs.map Readout.chunk) (by simpa using hrs) ?_ ?_ fuel bs c h).1]
  · exact c110_chunks x.mode n rs hok 0 ⟨0, 0⟩ ⟨0, 0, 0⟩ rfl (fun _ => ⟨rfl, by norm_num⟩) (fun _ => by norm_num) htime
  · intro k hk
    obtain ⟨r, hr, rfl⟩ := List.mem_map.mp hk
    exact (readout_header (hok r hr)).1
  · intro k hk
    obtain ⟨r, hr, rfl⟩ := List.mem_map.mp hk
    exact readout_noLookAlike (hok r hr) (hsig r hr)

/-- C110, hits: whatever the size of the pieces, the hits written are the true hits of the signals that are left. -/
theorem c110_hits (o : ProgramOptions) (s : Settings) (solve : List GaussRow → F64 × F64) (fuel : Nat) (rs : List Readout) (hrs : rs ≠ [])
    (hok : ∀ r ∈ rs, r.Ok) (hsig : ∀ r ∈ rs, ∀ s ∈ r.signals, SignalOk s) (n : Nat) (hn0 : 0 < n) (hsize : o.chunkSize = 8 * n)
    (htime : TimelyFile o.mode ⟨0, 0⟩ (keptReadouts n 0 rs))
    (w : Outputs) (h : mainCore o s solve (fun _ => {}) fuel (detectorFile rs) = .ok (.finished w)) :
    w.totalHits.toNat = (trueReadouts (needsClock o.mode) ⟨0, 0⟩ (keptReadouts n 0 rs)).flatten.length % 2 ^ 64 ∧
    (o.outHits ≠ [] → (trueReadouts (needsClock o.mode) ⟨0, 0⟩ (keptReadouts n 0 rs)).flatten ≠ [] → ∀ v ∈ hitAttrs,
      column w.hits "hits".toList v.1 =
        some ((trueReadouts (needsClock o.mode) ⟨0, 0⟩ (keptReadouts n 0 rs)).flatten.map fun x => .fin (v.2 x))) := by
  obtain ⟨bs, c, hrun, hhits, -, -, htot, -⟩ := c74_agree_partial o s solve fuel _ w h
  rw [hsize] at hrun
  have hch := kept_batches ⟨o.mode, s.params, solve⟩ n hn0 rs hrs hok hsig htime fuel bs c hrun
  have hfl : hitsOf bs = (trueReadouts (needsClock o.mode) ⟨0, 0⟩ (keptReadouts n 0 rs)).flatten := by
    rw [← hch, hitsOf, List.flatMap_def]
  rw [hfl] at hhits htot
  refine ⟨htot, fun ho hne => (hhits ho).2.2 ?_ hne⟩
  intro hm x hx
  obtain ⟨hs, h1, h2⟩ := List.mem_flatten.mp hx
  rw [hm] at h1 htime
  exact trueReadouts_earlyG _ ⟨0, 0⟩ (by norm_num) htime hs h1 x h2

/-- C110, events: whatever the size of the pieces, one event is written for every visible neutron among the signals that are left. -/
theorem c110_events_partial (o : ProgramOptions) (s : Settings) (solve : List GaussRow → F64 × F64) (fuel : Nat) (rs : List Readout)
    (hrs : rs ≠ []) (hok : ∀ r ∈ rs, r.Ok) (hsig : ∀ r ∈ rs, ∀ s ∈ r.signals, SignalOk s) (n : Nat) (hn0 : 0 < n)
    (hsize : o.chunkSize = 8 * n) (htime : TimelyFile o.mode ⟨0, 0⟩ (keptReadouts n 0 rs))
    (w : Outputs) (h : mainCore o s solve (fun _ => {}) fuel (detectorFile rs) = .ok (.finished w))
    (r : ℚ) (hp : s.params.feature = .fin r) (hr : |r| ≤ 2 ^ 20) (hrange : s.params.range < 2 ^ 64)
    (ht : o.mode = .tdc → ∀ hs ∈ trueReadouts false ⟨0, 0⟩ (keptReadouts n 0 rs), ∀ x ∈ hs, ∃ t, x.tof = some t ∧ t.toNat < 2 ^ 22)
    (neutron : List (List Int))
    (hres : List.Forall₂ (Resolved s.params.range r) (trueReadouts (needsClock o.mode) ⟨0, 0⟩ (keptReadouts n 0 rs)) neutron) :
    ∃ es : List Neutron,
      List.Forall₂ (IsEventOf 1)
        (List.zipWith (visible s.params.minSize) (trueReadouts (needsClock o.mode) ⟨0, 0⟩ (keptReadouts n 0 rs)) neutron).flatten es ∧
      w.totalNeutrons.toNat = es.length % 2 ^ 64 ∧
      (o.outEvents ≠ [] → (es = [] → w.events = []) ∧ (es ≠ [] →
        ∀ v ∈ neutronAttrs, column w.events "neutrons".toList v.1 = some (es.map v.2))) := by
  refine events_of_run o s solve fuel _ _ ?_ w h r hp hr hrange ?_ ?_ neutron hres
  · intro bs c hrun
    rw [hsize] at hrun
    exact kept_batches ⟨o.mode, s.params, solve⟩ n hn0 rs hrs hok hsig htime fuel bs c hrun
  · intro hm
    rw [hm] at htime ⊢
    exact trueReadouts_earlyG _ ⟨0, 0⟩ (by norm_num) htime
  · intro hm
    have h' := ht hm
    rw [hm]
    exact h'

/-- C110, images of hits: the program given the file of a detector returns 0; every pixel of every image file is the number of true hits among
the signals that are left, and every row of the spectrum file their number in its bin. -/
theorem c110_images_partial (argv : List Arg) (conf : Path → Res Settings) (solve : List GaussRow → F64 × F64)
    (input : Path → Option Bytes) (o : ProgramOptions) (w : Outputs) (d d' : Dir)
    (h : MainReturnsZero argv conf solve input (fun _ => {}) o w d d') (s : Settings) (hs : conf o.configFile = .ok s)
    (sr : ℚ) (qs : List ℚ) (hsr : s.sr = .fin sr) (hed : s.edges = .ok (qs.map .fin)) (hinc : qs.Pairwise (· < ·))
    (hl : 2 ≤ qs.length) (hside : 0 < side sr) (hfresh : ∀ i t, d (tiffName o.outTof o.tofBase i) ≠ some (.tiff t))
    (rs : List Readout) (hrs : rs ≠ []) (hok : ∀ r ∈ rs, r.Ok) (hsig : ∀ r ∈ rs, ∀ s ∈ r.signals, SignalOk s) (n : Nat) (hn0 : 0 < n)
    (hsize : o.chunkSize = 8 * n) (htime : TimelyFile o.mode ⟨0, 0⟩ (keptReadouts n 0 rs))
    (hin : input o.input = some (detectorFile rs)) (hmode : o.tofMode = "hit".toList) :
    (o.outTof ≠ [] → ∀ i y x, i + 1 < qs.length → y < side sr → x < side sr →
      filePixel (d' (tiffName o.outTof o.tofBase i)) y x = some (counted sr qs (side sr)
        ((trueReadouts (needsClock o.mode) ⟨0, 0⟩ (keptReadouts n 0 rs)).flatten.filterMap hitEntry) i y x % 2 ^ 32)) ∧
    (o.spectra ≠ [] → (trueReadouts (needsClock o.mode) ⟨0, 0⟩ (keptReadouts n 0 rs)).flatten.length < 2 ^ 32 →
      ∃ rows, d' (o.spectra ++ ".txt".toList) = some (.spectra rows) ∧ rows.length = qs.length - 1 ∧
        ∀ i q, qs[i + 1]? = some q → ∃ n', rows[i]? = some (.fin q, n') ∧ n'.toNat = countedIn sr qs (side sr)
          ((trueReadouts (needsClock o.mode) ⟨0, 0⟩ (keptReadouts n 0 rs)).flatten.filterMap hitEntry) i) := by
  obtain ⟨file, fuel, bs, c, h1, h2, h3, h4⟩ :=
    c74_files_partial argv conf solve input o w d d' h s hs sr qs hsr hed hinc hl hside hfresh
  rw [hin] at h1
  injection h1 with h1
  subst h1
  rw [hsize] at h2
  have hch := kept_batches ⟨o.mode, s.params, solve⟩ n hn0 rs hrs hok hsig htime fuel bs c h2
  have he := entryList_trueHits bs _ hch
  rw [hmode, String.ofList_toList, he] at h3 h4
  refine ⟨?_, ?_⟩
  · intro ho i y x hi hy hx
    obtain ⟨t, t1, -, -, t2⟩ := h3 ho i hi
    rw [t1]
    exact t2 y x hy hx
  · intro ho hlt
    exact h4 ho (lt_of_le_of_lt (List.length_filterMap_le ..) hlt)

/-- C110, images of neutrons: the same for the visible neutrons among the signals that are left. -/
theorem c110_neutron_images_partial (argv : List Arg) (conf : Path → Res Settings) (solve : List GaussRow → F64 × F64)
    (input : Path → Option Bytes) (o : ProgramOptions) (w : Outputs) (d d' : Dir)
    (h : MainReturnsZero argv conf solve input (fun _ => {}) o w d d') (s : Settings) (hs : conf o.configFile = .ok s)
    (sr : ℚ) (qs : List ℚ) (hsr : s.sr = .fin sr) (hed : s.edges = .ok (qs.map .fin)) (hinc : qs.Pairwise (· < ·))
    (hl : 2 ≤ qs.length) (hside : 0 < side sr) (hfresh : ∀ i t, d (tiffName o.outTof o.tofBase i) ≠ some (.tiff t))
    (rs : List Readout) (hrs : rs ≠ []) (hok : ∀ r ∈ rs, r.Ok) (hsig : ∀ r ∈ rs, ∀ s ∈ r.signals, SignalOk s) (n : Nat) (hn0 : 0 < n)
    (hsize : o.chunkSize = 8 * n) (htime : TimelyFile o.mode ⟨0, 0⟩ (keptReadouts n 0 rs))
    (hin : input o.input = some (detectorFile rs)) (hmode : o.tofMode ≠ "hit".toList)
    (r : ℚ) (hp : s.params.feature = .fin r) (hr : |r| ≤ 2 ^ 20) (hrange : s.params.range < 2 ^ 64)
    (ht : o.mode = .tdc → ∀ hs ∈ trueReadouts false ⟨0, 0⟩ (keptReadouts n 0 rs), ∀ x ∈ hs, ∃ t, x.tof = some t ∧ t.toNat < 2 ^ 22)
    (neutron : List (List Int))
    (hres : List.Forall₂ (Resolved s.params.range r) (trueReadouts (needsClock o.mode) ⟨0, 0⟩ (keptReadouts n 0 rs)) neutron) :
    ∃ es : List Neutron,
      List.Forall₂ (IsEventOf 1)
        (List.zipWith (visible s.params.minSize) (trueReadouts (needsClock o.mode) ⟨0, 0⟩ (keptReadouts n 0 rs)) neutron).flatten es ∧
      (o.outTof ≠ [] → ∀ i y x, i + 1 < qs.length → y < side sr → x < side sr →
        filePixel (d' (tiffName o.outTof o.tofBase i)) y x =
          some (counted sr qs (side sr) (es.map eventEntry) i y x % 2 ^ 32)) ∧
      (o.spectra ≠ [] → es.length < 2 ^ 32 →
        ∃ rows, d' (o.spectra ++ ".txt".toList) = some (.spectra rows) ∧ rows.length = qs.length - 1 ∧
          ∀ i q, qs[i + 1]? = some q → ∃ n', rows[i]? = some (.fin q, n') ∧
            n'.toNat = countedIn sr qs (side sr) (es.map eventEntry) i) := by
  obtain ⟨file, fuel, bs, c, h1, h2, h3, h4⟩ :=
    c74_files_partial argv conf solve input o w d d' h s hs sr qs hsr hed hinc hl hside hfresh
  rw [hin] at h1
  injection h1 with h1
  subst h1
  rw [hsize] at h2
  have hch := kept_batches ⟨o.mode, s.params, solve⟩ n hn0 rs hrs hok hsig htime fuel bs c h2
  have hm : String.ofList o.tofMode ≠ "hit" := by
    intro e
    apply hmode
    rw [← e, String.toList_ofList]
  have he : entryList (String.ofList o.tofMode) bs = (neutronsOf bs).map eventEntry := entryList_neutrons _ hm bs
  rw [he] at h3 h4
  refine ⟨neutronsOf bs, ?_, ?_, ?_⟩
  · refine neutrons_of_run ⟨o.mode, s.params, solve⟩ _ _ _ bs c h2 _ hch r hp hr hrange ?_ ?_ neutron hres
    · intro hg
      change o.mode = .gdc at hg
      rw [hg] at htime ⊢
      exact trueReadouts_earlyG _ _ (by norm_num) htime
    · intro hg
      change o.mode = .tdc at hg
      rw [hg]
      exact ht hg
  · intro ho i y x hi hy hx
    obtain ⟨t, t1, -, -, t2⟩ := h3 ho i hi
    rw [t1]
    exact t2 y x hy hx
  · intro ho hlt
    exact h4 ho (by simpa using hlt)

/-! ## Examples and the exception -/

/-- The flight times of the hits of a run that ends normally. -/
def runHits (r : Res (Option (List EventBatch × Clock))) : Option (List (List (Option U32))) := match r with
  | .ok (some (bs, _)) => some (bs.map fun b => b.batch.hits.map Hit.tof)
  | _ => none

/-- Two readouts; in pieces of five words the second pixel of the first is lost. -/
def exPieces : List Readout :=
  [⟨0, [.clock 1000, .trigger 1100, .pixel 1200 10 20 5 3, .pixel 1201 10 21 5 3]⟩, ⟨1, [.pixel 1300 30 40 5 3]⟩]

example : (∀ r ∈ exPieces, r.Ok) ∧ (∀ r ∈ exPieces, ∀ s ∈ r.signals, SignalOk s) ∧ TimelyFile .gdc ⟨0, 0⟩ exPieces ∧
    (∀ s ∈ lostSignals 5 0 exPieces, s.IsPixel) ∧ (lostSignals 5 0 exPieces).length = 1 ∧
    (trueReadouts true ⟨0, 0⟩ (keptReadouts 5 0 exPieces)).map (fun l => l.map Hit.x) = [[270], [485]] ∧
    (trueReadouts true ⟨0, 0⟩ exPieces).map (fun l => l.map Hit.x) = [[270, 270], [485]] := by
  refine ⟨?_, ?_, ?_, ?_, by decide +kernel, by decide +kernel, by decide +kernel⟩
  · simp only [exPieces, List.mem_cons, List.not_mem_nil, or_false]
    rintro r (rfl | rfl)
    · exact ⟨by decide, by decide, by simp [Signal.Disguised]⟩
    · exact ⟨by decide, by decide, by simp [Signal.Disguised]⟩
  · simp [exPieces, SignalOk, PixelOk]
  · norm_num [TimelyFile, exPieces, AllTimelyG, Signal.TimelyG, Past.after, PixelOk]
  · have e : lostSignals 5 0 exPieces = [.pixel 1201 10 21 5 3] := by
      simp [lostSignals, exPieces, keepSignals, Signal.packets, Readout.packets]
    rw [e]
    simp [Signal.IsPixel]

/-- C110 without the condition on the triggers: a lost trigger gives the hits after it the flight time from the trigger before. -/
theorem c110_false_trigger : runHits (cliRun ⟨.tdc, plainSettings.params, fun _ => (.nan, .nan)⟩ (8 * 3) 4
      (detectorFile [⟨0, [.trigger 1000, .pixel 2000 10 20 5 3, .trigger 400000]⟩, ⟨0, [.pixel 400100 10 20 5 3]⟩])) =
      some [[some 1000#32], [some 399100#32]] ∧
    (trueReadouts false ⟨0, 0⟩ [⟨0, [.trigger 1000, .pixel 2000 10 20 5 3, .trigger 400000]⟩, ⟨0, [.pixel 400100 10 20 5 3]⟩]).map
      (fun l => l.map Hit.tof) = [[some 1000#32], [some 100#32]] := by
  exact ⟨by decide +kernel, by decide +kernel⟩

end Verif.Props
