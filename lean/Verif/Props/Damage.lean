import Verif.Spec.Damage
import Verif.Props.AnyRun
import Verif.Props.Arrival
import Verif.Props.DetectorCut
import Verif.Props.ScanAny
import Verif.Props.Bench

/-! # C119: what damage to a file changes -/

namespace Verif.Props

open Verif Verif.Spec

/-! ## Words, pieces and chunks of a damaged file -/

theorem take_reaches {α : Type*} (a b : List α) (w : α) (k : Nat) (h : a.length < k) :
    (a ++ w :: b).take k = a ++ w :: b.take (k - a.length - 1) := by
  rw [List.take_append, List.take_of_length_le (by omega)]
  obtain ⟨j, hj⟩ : ∃ j, k - a.length = j + 1 := ⟨_, (Nat.succ_pred (by omega)).symm⟩
  rw [hj, List.take_succ_cons]
  rfl

theorem take_before {α : Type*} (a b : List α) (k : Nat) (h : k ≤ a.length) : (a ++ b).take k = a.take k := by
  rw [List.take_append_of_le_length h]

/-- Another word in place of a packet changes one packet of one chunk, or nothing. -/
theorem announced_replace (a b : List U64) (w v : U64) (hw : ¬ StartsTPX w) (hv : ¬ StartsTPX v) (hn : NoOverrun (a ++ w :: b)) :
    announced (a ++ w :: b) = announced (a ++ v :: b) ∨
    ∃ K h p q R, announced (a ++ w :: b) = K ++ ⟨h, p ++ w :: q⟩ :: R ∧ announced (a ++ v :: b) = K ++ ⟨h, p ++ v :: q⟩ :: R := by
  induction a with
  | nil =>
    left
    simp only [List.nil_append, announced, if_neg hw, if_neg hv]
  | cons u a ih =>
    simp only [List.cons_append, announced]
    by_cases hu : StartsTPX u
    · simp only [if_pos hu]
      by_cases hk : field u 48 16 / 8 ≤ a.length
      · rw [take_before _ _ _ hk, take_before _ _ _ hk]
        rcases ih hn.2 with e | ⟨K, h, p, q, R, e1, e2⟩
        · left
          rw [e]
        · right
          exact ⟨⟨u, a.take (field u 48 16 / 8)⟩ :: K, h, p, q, R, by rw [e1]; rfl, by rw [e2]; rfl⟩
      · right
        have hk' : a.length < field u 48 16 / 8 := by omega
        have hin := hn.1 hu
        rw [show (a.append (w :: b)) = a ++ w :: b from rfl, take_reaches _ _ _ _ hk'] at hin
        have ha : ∀ z ∈ a, ¬ StartsTPX z := fun z hz => hin z (by simp [hz])
        rw [take_reaches _ _ _ _ hk', take_reaches _ _ _ _ hk', announced_packets _ _ ha, announced_packets _ _ ha]
        exact ⟨[], u, a, _, announced b, by simp only [announced, if_neg hw]; rfl, by simp only [announced, if_neg hv]; rfl⟩
    · simp only [if_neg hu]
      exact ih hn.2

/-- Another word in place of a header takes away its chunk. -/
theorem announced_header (a b : List U64) (w v : U64) (hw : StartsTPX w) (hv : ¬ StartsTPX v) (hn : NoOverrun (a ++ w :: b)) :
    ∃ K R, announced (a ++ w :: b) = K ++ ⟨w, b.take (field w 48 16 / 8)⟩ :: R ∧ announced (a ++ v :: b) = K ++ R := by
  induction a with
  | nil => exact ⟨[], announced b, by simp only [List.nil_append, announced, if_pos hw], by simp only [List.nil_append, announced, if_neg hv]⟩
  | cons u a ih =>
    obtain ⟨K, R, e1, e2⟩ := ih hn.2
    simp only [List.cons_append, announced]
    by_cases hu : StartsTPX u
    · simp only [if_pos hu]
      have hk : field u 48 16 / 8 ≤ a.length := by
        by_contra hk
        have hin := hn.1 hu
        rw [show (a.append (w :: b)) = a ++ w :: b from rfl, take_reaches _ _ _ _ (by omega)] at hin
        exact hin w (by simp) hw
      rw [take_before _ _ _ hk, take_before _ _ _ hk]
      exact ⟨⟨u, a.take (field u 48 16 / 8)⟩ :: K, R, by rw [e1]; rfl, by rw [e2]; rfl⟩
    · simp only [if_neg hu]
      exact ⟨K, R, e1, e2⟩

/-- Only the piece that holds the word changes. -/
theorem pieces_word (n : Nat) (hn0 : 0 < n) (hn : n % 8 = 0) (pre post : Bytes) (hp : pre.length % 8 = 0) :
    ∃ P a b Q, a.length % 8 = 0 ∧ ∀ w, pieces n (withWord pre w post) = P ++ (a ++ (bytesOf w ++ b)) :: Q := by
  induction hlen : pre.length using Nat.strong_induction_on generalizing pre with
  | _ k ih =>
    have hne : ∀ w, withWord pre w post ≠ [] := by
      intro w h
      have := congrArg List.length h
      simp [withWord, bytesOf_length] at this
    by_cases hk : n ≤ pre.length
    · obtain ⟨P, a, b, Q, h1, h2⟩ := ih (pre.drop n).length (by rw [List.length_drop]; omega) (pre.drop n)
        (by rw [List.length_drop]; omega) rfl
      refine ⟨pre.take n :: P, a, b, Q, h1, fun w => ?_⟩
      rw [pieces_cons n hn0 _ (hne w)]
      have e1 : (withWord pre w post).take n = pre.take n := by
        unfold withWord; exact take_before _ _ _ hk
      have e2 : (withWord pre w post).drop n = withWord (pre.drop n) w post := by
        unfold withWord; rw [List.drop_append_of_le_length hk]
      rw [e1, e2, h2 w]
      rfl
    · refine ⟨[], pre, post.take (n - pre.length - 8), pieces n (post.drop (n - pre.length - 8)), hp, fun w => ?_⟩
      rw [pieces_cons n hn0 _ (hne w)]
      have hl := bytesOf_length w
      have e1 : (withWord pre w post).take n = pre ++ (bytesOf w ++ post.take (n - pre.length - 8)) := by
        unfold withWord
        rw [List.take_append, List.take_of_length_le (by omega), List.take_append, List.take_of_length_le (l := bytesOf w) (by omega), hl]
      have e2 : (withWord pre w post).drop n = post.drop (n - pre.length - 8) := by
        unfold withWord
        rw [List.drop_append, List.drop_of_length_le (by omega), List.drop_append, List.drop_of_length_le (l := bytesOf w) (by omega), hl]
        rfl
      rw [e1, e2]
      rfl

theorem wordsOf_word (a b : Bytes) (ha : a.length % 8 = 0) (w : U64) : wordsOf (a ++ (bytesOf w ++ b)) = wordsOf a ++ w :: wordsOf b := by
  conv_lhs => rw [bytes_words (a.length / 8) a (by omega)]
  rw [wordsOf_flatMap_append, wordsOf_bytesOf_append]

/-- The words around the word, in its piece. -/
theorem fileChunks_word (n : Nat) (hn0 : 0 < n) (hn : n % 8 = 0) (pre post : Bytes) (hp : pre.length % 8 = 0) :
    ∃ (K : List Chunk) (a b : List U64) (R : List Chunk), ∀ w,
      fileChunks n (withWord pre w post) = K ++ (announced (a ++ w :: b) ++ R) ∧
      (Orderly n (withWord pre w post) → NoOverrun (a ++ w :: b)) := by
  obtain ⟨P, a, b, Q, ha, h⟩ := pieces_word n hn0 hn pre post hp
  refine ⟨P.flatMap fun p => announced (wordsOf p), wordsOf a, wordsOf b, Q.flatMap fun p => announced (wordsOf p), fun w => ⟨?_, fun ho => ?_⟩⟩
  · unfold fileChunks
    rw [h w, List.flatMap_append, List.flatMap_cons, wordsOf_word a b ha]
  · have := ho (a ++ (bytesOf w ++ b)) (by rw [h w]; simp)
    rwa [wordsOf_word a b ha] at this

theorem fileChunks_packet (n : Nat) (hn0 : 0 < n) (hn : n % 8 = 0) (pre post : Bytes) (hp : pre.length % 8 = 0) (w v : U64)
    (hw : ¬ StartsTPX w) (hv : ¬ StartsTPX v) (ho : Orderly n (withWord pre w post)) :
    fileChunks n (withWord pre w post) = fileChunks n (withWord pre v post) ∨
    ∃ K h p q R, fileChunks n (withWord pre w post) = K ++ ⟨h, p ++ w :: q⟩ :: R ∧
      fileChunks n (withWord pre v post) = K ++ ⟨h, p ++ v :: q⟩ :: R := by
  obtain ⟨K, a, b, R, h⟩ := fileChunks_word n hn0 hn pre post hp
  rw [(h w).1, (h v).1]
  rcases announced_replace a b w v hw hv ((h w).2 ho) with e | ⟨K', hd, p, q, R', e1, e2⟩
  · left
    rw [e]
  · right
    exact ⟨K ++ K', hd, p, q, R' ++ R, by rw [e1]; simp, by rw [e2]; simp⟩

theorem fileChunks_header (n : Nat) (hn0 : 0 < n) (hn : n % 8 = 0) (pre post : Bytes) (hp : pre.length % 8 = 0) (w v : U64)
    (hw : StartsTPX w) (hv : ¬ StartsTPX v) (ho : Orderly n (withWord pre w post)) :
    ∃ K p R, fileChunks n (withWord pre w post) = K ++ ⟨w, p⟩ :: R ∧ fileChunks n (withWord pre v post) = K ++ R := by
  obtain ⟨K, a, b, R, h⟩ := fileChunks_word n hn0 hn pre post hp
  rw [(h w).1, (h v).1]
  obtain ⟨K', R', e1, e2⟩ := announced_header a b w v hw hv ((h w).2 ho)
  exact ⟨K ++ K', b.take (field w 48 16 / 8), R' ++ R, by rw [e1]; simp, by rw [e2]; simp⟩

/-! ## Hits of chunks -/

/-- The times after packets, and the hits of a chunk, in either mode. -/
def timesOf (m : Mode) (t : Times) (ws : List U64) : Times := match m with | .gdc => timesG t ws | .tdc => timesT t ws
def hitsIn (m : Mode) (chip : Int) (t : Times) (ws : List U64) : List Hit := match m with | .gdc => hitsG chip t ws | .tdc => hitsT chip t ws

theorem chunkHits_cons (m : Mode) (t : Times) (k : Chunk) (ks : List Chunk) :
    chunkHits m t (k :: ks) = hitsIn m (headerChipId k.header) t k.packets :: chunkHits m (timesOf m t k.packets) ks := by
  cases m <;> rfl

theorem timesOf_append (m : Mode) (t : Times) (a b : List U64) : timesOf m t (a ++ b) = timesOf m (timesOf m t a) b := by
  cases m
  · exact timesG_append t a b
  · exact timesT_append t a b

theorem hitsIn_append (m : Mode) (chip : Int) (t : Times) (a b : List U64) :
    hitsIn m chip t (a ++ b) = hitsIn m chip t a ++ hitsIn m chip (timesOf m t a) b := by
  cases m
  · exact hitsG_append chip t a b
  · exact hitsT_append chip t a b

theorem chunkHits_append (m : Mode) (t : Times) (a b : List Chunk) :
    chunkHits m t (a ++ b) = chunkHits m t a ++ chunkHits m (timesOf m t (a.flatMap Chunk.packets)) b := by
  induction a generalizing t with
  | nil => cases m <;> rfl
  | cons k a ih => rw [List.cons_append, chunkHits_cons, chunkHits_cons, ih, List.flatMap_cons, timesOf_append]; rfl

theorem chunkHits_length (m : Mode) (t : Times) (a : List Chunk) : (chunkHits m t a).length = a.length := by
  induction a generalizing t with
  | nil => rfl
  | cons k a ih => rw [chunkHits_cons, List.length_cons, List.length_cons, ih]

theorem next_neutral (m : Mode) (w : U64) (h : ¬ IsTimePacket w) (t : Times) : timesOf m t [w] = t := by
  unfold IsTimePacket at h
  rw [not_or] at h
  cases m
  · show nextG w t = t
    unfold nextG
    rw [if_neg h.1, if_neg h.2]
  · show nextT w t = t
    unfold nextT
    rw [if_neg h.1]

theorem times_neutral (m : Mode) (ws : List U64) (h : ∀ w ∈ ws, ¬ IsTimePacket w) (t : Times) : timesOf m t ws = t := by
  induction ws generalizing t with
  | nil => cases m <;> rfl
  | cons w ws ih =>
    rw [show w :: ws = [w] ++ ws from rfl, timesOf_append, next_neutral m w (h w (by simp)), ih (fun v hv => h v (by simp [hv]))]

theorem hitsIn_one (m : Mode) (chip : Int) (t : Times) (w : U64) :
    (hitsIn m chip t [w]).length ≤ 1 ∧ (¬ IsHitPacket w → hitsIn m chip t [w] = []) := by
  cases m
  · show (hitsG chip t [w]).length ≤ 1 ∧ (_ → hitsG chip t [w] = [])
    rw [hitsG_cons, show hitsG chip (nextG w t) [] = [] from rfl, List.append_nil]
    split_ifs with h
    · exact ⟨by simp, fun h' => absurd h.1 h'⟩
    · exact ⟨by simp, fun _ => rfl⟩
  · show (hitsT chip t [w]).length ≤ 1 ∧ (_ → hitsT chip t [w] = [])
    rw [hitsT_cons, show hitsT chip (nextT w t) [] = [] from rfl, List.append_nil]
    split_ifs with h
    · exact ⟨by simp, fun h' => absurd h.1 h'⟩
    · exact ⟨by simp, fun _ => rfl⟩

theorem hitsG_count (chip : Int) (t : Times) (ws : List U64) : (hitsG chip t ws).length ≤ ws.length := by
  unfold hitsG hitIndicesG
  rw [List.length_map]
  exact (List.length_filter_le _ _).trans (by rw [List.length_range])

theorem hitsT_count (chip : Int) (t : Times) (ws : List U64) : (hitsT chip t ws).length ≤ ws.length := by
  unfold hitsT hitIndicesT
  rw [List.length_map]
  exact (List.length_filter_le _ _).trans (by rw [List.length_range])

/-! ## The output of a run -/

/-- The events of hits, if they are defined. -/
def eventsGiven (x : CliCtx) (hs : List Hit) : List Neutron := match eventsOf x hs with | .ok ns => ns | _ => []

theorem output_of_hits (x : CliCtx) (n : Nat) (hn0 : 0 < n) (file : Bytes) (fuel : Nat) (bs : List EventBatch) (c : Clock)
    (h : cliRun x n fuel file = .ok (some (bs, c))) :
    outputOf bs = (chunkHits x.mode ⟨0, 0, 0⟩ (fileChunks n file)).map fun hs => (hs, eventsGiven x hs) := by
  obtain ⟨-, h1, h2⟩ := c94_hits x n hn0 file fuel bs c h
  rw [← h1, List.map_map]
  unfold outputOf
  apply List.map_congr_left
  intro b hb
  have := h2 b hb
  simp only [Function.comp, eventsGiven, this]

/-! ## A damaged packet -/

/-- C119: in a file whose headers do not reach each other, put any other word that is neither a time packet nor a header in the place
of one that is neither.  In both modes the output of all batches but one is the same, and in that one at most the hit of the
damaged packet is another one; it is missing if the packet is no hit packet any more. -/
theorem c119_packet (x : CliCtx) (n : Nat) (hn0 : 0 < n) (hn : n % 8 = 0) (pre post : Bytes) (hp : pre.length % 8 = 0) (w v : U64)
    (hw : ¬ StartsTPX w ∧ ¬ IsTimePacket w) (hv : ¬ StartsTPX v ∧ ¬ IsTimePacket v) (ho : Orderly n (withWord pre w post))
    (f f' : Nat) (bs bs' : List EventBatch) (c c' : Clock)
    (h : cliRun x n f (withWord pre w post) = .ok (some (bs, c))) (h' : cliRun x n f' (withWord pre v post) = .ok (some (bs', c'))) :
    outputOf bs = outputOf bs' ∨
    ∃ A X W V Y e e' B, outputOf bs = A ++ (X ++ (W ++ Y), e) :: B ∧ outputOf bs' = A ++ (X ++ (V ++ Y), e') :: B ∧
      W.length ≤ 1 ∧ V.length ≤ 1 ∧ (¬ IsHitPacket w → W = []) ∧ (¬ IsHitPacket v → V = []) := by
  rw [output_of_hits x n hn0 _ f bs c h, output_of_hits x n hn0 _ f' bs' c' h']
  rcases fileChunks_packet n hn0 hn pre post hp w v hw.1 hv.1 ho with e | ⟨K, hd, p, q, R, e1, e2⟩
  · left
    rw [e]
  · right
    rw [e1, e2]
    generalize (⟨0, 0, 0⟩ : Times) = t
    have key : ∀ u, ¬ IsTimePacket u → chunkHits x.mode t (K ++ ⟨hd, p ++ u :: q⟩ :: R) =
        chunkHits x.mode t K ++
          (hitsIn x.mode (headerChipId hd) (timesOf x.mode t (K.flatMap Chunk.packets)) p ++
            (hitsIn x.mode (headerChipId hd) (timesOf x.mode (timesOf x.mode t (K.flatMap Chunk.packets)) p) [u] ++
              hitsIn x.mode (headerChipId hd) (timesOf x.mode (timesOf x.mode t (K.flatMap Chunk.packets)) p) q)) ::
          chunkHits x.mode (timesOf x.mode (timesOf x.mode (timesOf x.mode t (K.flatMap Chunk.packets)) p) q) R := by
      intro u hu
      rw [chunkHits_append, chunkHits_cons]
      simp only
      rw [show p ++ u :: q = p ++ ([u] ++ q) from rfl, hitsIn_append, hitsIn_append, timesOf_append, timesOf_append, next_neutral _ u hu]
    rw [key w hw.2, key v hv.2]
    simp only [List.map_append, List.map_cons]
    exact ⟨_, _, _, _, _, _, _, _, rfl, rfl, (hitsIn_one _ _ _ w).1, (hitsIn_one _ _ _ v).1, (hitsIn_one _ _ _ w).2,
      (hitsIn_one _ _ _ v).2⟩

/-- C119, with the global clock: any word but a header in the place of any packet, time packets too.  The batches before are the same,
and so are all batches after the packets between have given the times again. -/
theorem c119_resync (x : CliCtx) (hx : x.mode = .gdc) (n : Nat) (hn0 : 0 < n) (hn : n % 8 = 0) (pre post : Bytes)
    (hp : pre.length % 8 = 0) (w v : U64) (hw : ¬ StartsTPX w) (hv : ¬ StartsTPX v) (ho : Orderly n (withWord pre w post))
    (f f' : Nat) (bs bs' : List EventBatch) (c c' : Clock)
    (h : cliRun x n f (withWord pre w post) = .ok (some (bs, c))) (h' : cliRun x n f' (withWord pre v post) = .ok (some (bs', c'))) :
    outputOf bs = outputOf bs' ∨
    ∃ K hd p q R, fileChunks n (withWord pre w post) = K ++ ⟨hd, p ++ w :: q⟩ :: R ∧
      fileChunks n (withWord pre v post) = K ++ ⟨hd, p ++ v :: q⟩ :: R ∧
      ∀ D E, R = D ++ E → GivesTimes (q ++ D.flatMap Chunk.packets) →
        ∃ A X Y e Y' e' M M' B, outputOf bs = A ++ (X ++ Y, e) :: (M ++ B) ∧ outputOf bs' = A ++ (X ++ Y', e') :: (M' ++ B) ∧
          A.length = K.length ∧ M.length = D.length ∧ M'.length = D.length ∧
          X = hitsG (headerChipId hd) (timesG ⟨0, 0, 0⟩ (K.flatMap Chunk.packets)) p := by
  rw [output_of_hits x n hn0 _ f bs c h, output_of_hits x n hn0 _ f' bs' c' h']
  rcases fileChunks_packet n hn0 hn pre post hp w v hw hv ho with e | ⟨K, hd, p, q, R, e1, e2⟩
  · left
    rw [e]
  · right
    refine ⟨K, hd, p, q, R, e1, e2, ?_⟩
    rintro D E rfl hg
    rw [e1, e2, hx]
    generalize (⟨0, 0, 0⟩ : Times) = t
    have key : ∀ u, chunkHits .gdc t (K ++ ⟨hd, p ++ u :: q⟩ :: (D ++ E)) =
        chunkHits .gdc t K ++ (hitsG (headerChipId hd) (timesG t (K.flatMap Chunk.packets)) p ++
          hitsG (headerChipId hd) (timesG (timesG t (K.flatMap Chunk.packets)) p) (u :: q)) ::
          (chunkHits .gdc (timesG (timesG t (K.flatMap Chunk.packets)) (p ++ u :: q)) D ++
            chunkHits .gdc (timesG t (q ++ D.flatMap Chunk.packets)) E) := by
      intro u
      rw [chunkHits_append, chunkHits_cons, chunkHits_append]
      simp only [hitsIn, timesOf]
      rw [hitsG_append]
      congr 4
      rw [timesG_append _ p, timesG_cons, ← timesG_append]
      exact timesG_gives hg _ _
    rw [key w, key v]
    simp only [List.map_append, List.map_cons]
    exact ⟨_, _, _, _, _, _, _, _, _, rfl, rfl, by rw [List.length_map, chunkHits_length], by rw [List.length_map, chunkHits_length],
      by rw [List.length_map, chunkHits_length], rfl⟩

/-! ## A damaged header -/

/-- C119: a word that is no header in the place of a header.  The batch of that header is missing.  If it holds no time packet, all
others are the same, in both modes; with the global clock they are the same in any case as soon as the times are given again. -/
theorem c119_header (x : CliCtx) (n : Nat) (hn0 : 0 < n) (hn : n % 8 = 0) (pre post : Bytes) (hp : pre.length % 8 = 0) (w v : U64)
    (hw : StartsTPX w) (hv : ¬ StartsTPX v) (ho : Orderly n (withWord pre w post))
    (f f' : Nat) (bs bs' : List EventBatch) (c c' : Clock)
    (h : cliRun x n f (withWord pre w post) = .ok (some (bs, c))) (h' : cliRun x n f' (withWord pre v post) = .ok (some (bs', c'))) :
    ∃ K p R, fileChunks n (withWord pre w post) = K ++ ⟨w, p⟩ :: R ∧ fileChunks n (withWord pre v post) = K ++ R ∧
      ((∀ u ∈ p, ¬ IsTimePacket u) → ∃ A b B, outputOf bs = A ++ b :: B ∧ outputOf bs' = A ++ B ∧ A.length = K.length) ∧
      (x.mode = .gdc → ∀ D E, R = D ++ E → GivesTimes (D.flatMap Chunk.packets) →
        ∃ A b M M' B, outputOf bs = A ++ b :: (M ++ B) ∧ outputOf bs' = A ++ (M' ++ B) ∧ A.length = K.length ∧
          M.length = D.length ∧ M'.length = D.length) := by
  rw [output_of_hits x n hn0 _ f bs c h, output_of_hits x n hn0 _ f' bs' c' h']
  obtain ⟨K, p, R, e1, e2⟩ := fileChunks_header n hn0 hn pre post hp w v hw hv ho
  refine ⟨K, p, R, e1, e2, ?_, ?_⟩
  · intro hu
    rw [e1, e2, chunkHits_append, chunkHits_append, chunkHits_cons]
    simp only
    rw [times_neutral _ p hu]
    simp only [List.map_append, List.map_cons]
    exact ⟨_, _, _, rfl, rfl, by rw [List.length_map, chunkHits_length]⟩
  · rintro hx D E rfl hg
    rw [e1, e2, hx, chunkHits_append, chunkHits_append, chunkHits_cons, chunkHits_append, chunkHits_append]
    simp only [timesOf]
    rw [timesG_gives hg (timesG (timesG _ _) p) (timesG ⟨0, 0, 0⟩ (K.flatMap Chunk.packets))]
    simp only [List.map_append, List.map_cons]
    exact ⟨_, _, _, _, _, rfl, rfl, by rw [List.length_map, chunkHits_length], by rw [List.length_map, chunkHits_length],
      by rw [List.length_map, chunkHits_length]⟩

theorem announced_size (a b : List U64) (w v : U64) (hw : StartsTPX w) (hv : StartsTPX v) (hn : NoOverrun (a ++ w :: b)) :
    ∃ K R, announced (a ++ w :: b) = K ++ ⟨w, b.take (field w 48 16 / 8)⟩ :: R ∧
      announced (a ++ v :: b) = K ++ ⟨v, b.take (field v 48 16 / 8)⟩ :: R := by
  induction a with
  | nil => exact ⟨[], announced b, by simp only [List.nil_append, announced, if_pos hw], by simp only [List.nil_append, announced, if_pos hv]⟩
  | cons u a ih =>
    obtain ⟨K, R, e1, e2⟩ := ih hn.2
    simp only [List.cons_append, announced]
    by_cases hu : StartsTPX u
    · simp only [if_pos hu]
      have hk : field u 48 16 / 8 ≤ a.length := by
        by_contra hk
        have hin := hn.1 hu
        rw [show (a.append (w :: b)) = a ++ w :: b from rfl, take_reaches _ _ _ _ (by omega)] at hin
        exact hin w (by simp) hw
      rw [take_before _ _ _ hk, take_before _ _ _ hk]
      exact ⟨⟨u, a.take (field u 48 16 / 8)⟩ :: K, R, by rw [e1]; rfl, by rw [e2]; rfl⟩
    · simp only [if_neg hu]
      exact ⟨K, R, e1, e2⟩

/-- C119: a header of the same chip that announces fewer packets.  Its batch has the first hits only; if no time packet is left out,
all others are the same, in both modes. -/
theorem c119_short (x : CliCtx) (n : Nat) (hn0 : 0 < n) (hn : n % 8 = 0) (pre post : Bytes) (hp : pre.length % 8 = 0) (w v : U64)
    (hw : StartsTPX w) (hv : StartsTPX v) (hc : headerChipId w = headerChipId v) (hs : field v 48 16 ≤ field w 48 16)
    (ho : Orderly n (withWord pre w post)) (f f' : Nat) (bs bs' : List EventBatch) (c c' : Clock)
    (h : cliRun x n f (withWord pre w post) = .ok (some (bs, c))) (h' : cliRun x n f' (withWord pre v post) = .ok (some (bs', c'))) :
    ∃ K p q R, fileChunks n (withWord pre w post) = K ++ ⟨w, p ++ q⟩ :: R ∧ fileChunks n (withWord pre v post) = K ++ ⟨v, p⟩ :: R ∧
      ((∀ u ∈ q, ¬ IsTimePacket u) → ∃ A X Y e e' B, outputOf bs = A ++ (X ++ Y, e) :: B ∧ outputOf bs' = A ++ (X, e') :: B ∧
        Y.length ≤ q.length) := by
  rw [output_of_hits x n hn0 _ f bs c h, output_of_hits x n hn0 _ f' bs' c' h']
  obtain ⟨K, a, b, R, hf⟩ := fileChunks_word n hn0 hn pre post hp
  obtain ⟨K', R', e1, e2⟩ := announced_size a b w v hw hv ((hf w).2 ho)
  have hle : field v 48 16 / 8 ≤ field w 48 16 / 8 := Nat.div_le_div_right hs
  have hsplit : b.take (field w 48 16 / 8) = b.take (field v 48 16 / 8) ++ (b.drop (field v 48 16 / 8)).take (field w 48 16 / 8 - field v 48 16 / 8) := by
    conv_lhs => rw [show field w 48 16 / 8 = field v 48 16 / 8 + (field w 48 16 / 8 - field v 48 16 / 8) by omega, List.take_add]
  rw [hsplit] at e1
  generalize (b.drop (field v 48 16 / 8)).take (field w 48 16 / 8 - field v 48 16 / 8) = q at e1
  generalize b.take (field v 48 16 / 8) = p at e1 e2
  have g1 : fileChunks n (withWord pre w post) = (K ++ K') ++ ⟨w, p ++ q⟩ :: (R' ++ R) := by rw [(hf w).1, e1]; simp
  have g2 : fileChunks n (withWord pre v post) = (K ++ K') ++ ⟨v, p⟩ :: (R' ++ R) := by rw [(hf v).1, e2]; simp
  refine ⟨K ++ K', p, q, R' ++ R, g1, g2, fun hq => ?_⟩
  rw [g1, g2, chunkHits_append, chunkHits_append x.mode _ (K ++ K'), chunkHits_cons, chunkHits_cons]
  simp only
  rw [hitsIn_append, timesOf_append, times_neutral _ q hq, hc]
  simp only [List.map_append, List.map_cons]
  refine ⟨_, _, _, _, _, _, rfl, rfl, ?_⟩
  cases x.mode
  · exact hitsG_count _ _ _
  · exact hitsT_count _ _ _

/-! ## A file that ends too early, or goes on differently -/

theorem announced_cut (a b : List U64) (hn : NoOverrun (a ++ b)) :
    (∃ R, announced (a ++ b) = announced a ++ R) ∨
    ∃ K h p q R, announced a = K ++ [⟨h, p⟩] ∧ announced (a ++ b) = K ++ ⟨h, p ++ q⟩ :: R := by
  induction a with
  | nil => exact .inl ⟨announced b, rfl⟩
  | cons u a ih =>
    simp only [List.cons_append, announced]
    by_cases hu : StartsTPX u
    · simp only [if_pos hu]
      by_cases hk : field u 48 16 / 8 ≤ a.length
      · rw [take_before _ _ _ hk]
        rcases ih hn.2 with ⟨R, e⟩ | ⟨K, h, p, q, R, e1, e2⟩
        · exact .inl ⟨R, by rw [e]; rfl⟩
        · exact .inr ⟨⟨u, a.take (field u 48 16 / 8)⟩ :: K, h, p, q, R, by rw [e1]; rfl, by rw [e2]; rfl⟩
      · right
        have hin := hn.1 hu
        rw [show (a.append b) = a ++ b from rfl, List.take_append, List.take_of_length_le (by omega)] at hin
        have ha : ∀ z ∈ a, ¬ StartsTPX z := fun z hz => hin z (by simp [hz])
        have ha0 : announced a = [] := by
          have := announced_packets a [] ha
          rwa [List.append_nil] at this
        rw [announced_packets _ _ ha, ha0, List.take_append, List.take_of_length_le (l := a) (by omega)]
        exact ⟨[], u, a, _, _, rfl, rfl⟩
    · simp only [if_neg hu]
      exact ih hn.2

theorem fileChunks_cut (n : Nat) (hn0 : 0 < n) (pre post : Bytes) (hp : pre.length % 8 = 0) (ho : Orderly n (pre ++ post)) (hn : n % 8 = 0) :
    (∃ R, fileChunks n (pre ++ post) = fileChunks n pre ++ R) ∨
    ∃ K h p q R, fileChunks n pre = K ++ [⟨h, p⟩] ∧ fileChunks n (pre ++ post) = K ++ ⟨h, p ++ q⟩ :: R := by
  induction hlen : pre.length using Nat.strong_induction_on generalizing pre with
  | _ k ih =>
    by_cases h0 : pre = []
    · subst h0
      left
      exact ⟨_, by unfold fileChunks; rw [pieces_nil n hn0]; rfl⟩
    have hpos : 0 < pre.length := List.length_pos_iff.mpr h0
    have hne : pre ++ post ≠ [] := by simp [h0]
    have hcons := pieces_cons n hn0 pre h0
    have hcons' := pieces_cons n hn0 (pre ++ post) hne
    by_cases hk : n ≤ pre.length
    · rw [take_before _ _ _ hk, List.drop_append_of_le_length hk] at hcons'
      have ho' : Orderly n (pre.drop n ++ post) := by
        intro p hp'
        exact ho p (by rw [hcons']; simp [hp'])
      unfold fileChunks
      rw [hcons, hcons', List.flatMap_cons, List.flatMap_cons]
      rcases ih (pre.drop n).length (by rw [List.length_drop]; omega) (pre.drop n) (by rw [List.length_drop]; omega) ho' rfl with
        ⟨R, e⟩ | ⟨K, h, p, q, R, e1, e2⟩
      · exact .inl ⟨R, by unfold fileChunks at e; rw [e, List.append_assoc]⟩
      · refine .inr ⟨announced (wordsOf (pre.take n)) ++ K, h, p, q, R, ?_, ?_⟩
        · unfold fileChunks at e1; rw [e1, List.append_assoc]
        · unfold fileChunks at e2; rw [e2, List.append_assoc]
    · rw [List.take_of_length_le (by omega), List.drop_of_length_le (by omega), pieces_nil n hn0] at hcons
      have e1 : (pre ++ post).take n = pre ++ post.take (n - pre.length) := by
        rw [List.take_append, List.take_of_length_le (by omega)]
      have hw : ∀ l, wordsOf (pre ++ l) = wordsOf pre ++ wordsOf l := by
        intro l
        conv_lhs => rw [bytes_words (pre.length / 8) pre (by omega)]
        rw [wordsOf_flatMap_append]
      have hno : NoOverrun (wordsOf pre ++ wordsOf (post.take (n - pre.length))) := by
        rw [← hw, ← e1]
        exact ho _ (by rw [hcons']; simp)
      unfold fileChunks
      rw [hcons, hcons', e1, List.flatMap_cons, List.flatMap_cons, hw, List.flatMap_nil, List.append_nil]
      rcases announced_cut _ _ hno with ⟨R, e⟩ | ⟨K, h, p, q, R, g1, g2⟩
      · exact .inl ⟨_, by rw [e, List.append_assoc]⟩
      · exact .inr ⟨K, h, p, q, _, g1, by rw [g2, List.append_assoc, List.cons_append]⟩

/-- C119: a file that ends too early, after any whole number of words.  The batches are the first ones of the complete file; at most
the last one is cut, and its hits are the first ones of the complete batch. -/
theorem c119_cut (x : CliCtx) (n : Nat) (hn0 : 0 < n) (hn : n % 8 = 0) (pre post : Bytes) (hp : pre.length % 8 = 0)
    (ho : Orderly n (pre ++ post)) (f f' : Nat) (bs bs' : List EventBatch) (c c' : Clock)
    (h : cliRun x n f (pre ++ post) = .ok (some (bs, c))) (h' : cliRun x n f' pre = .ok (some (bs', c'))) :
    (∃ B, outputOf bs = outputOf bs' ++ B) ∨
    ∃ A X Y e e' B, outputOf bs' = A ++ [(X, e)] ∧ outputOf bs = A ++ (X ++ Y, e') :: B := by
  rw [output_of_hits x n hn0 _ f bs c h, output_of_hits x n hn0 _ f' bs' c' h']
  rcases fileChunks_cut n hn0 pre post hp ho hn with ⟨R, e⟩ | ⟨K, hd, p, q, R, e1, e2⟩
  · left
    rw [e, chunkHits_append, List.map_append]
    exact ⟨_, rfl⟩
  · right
    rw [e1, e2, chunkHits_append, chunkHits_append, chunkHits_cons, chunkHits_cons]
    simp only
    rw [hitsIn_append]
    simp only [List.map_append, List.map_cons]
    exact ⟨_, _, _, _, _, _, rfl, rfl⟩

theorem fileChunks_pieces (n : Nat) (hn0 : 0 < n) (j : Nat) (file : Bytes) :
    ∃ R, fileChunks n file = fileChunks n (file.take (n * j)) ++ R := by
  induction j generalizing file with
  | zero => exact ⟨fileChunks n file, by unfold fileChunks; rw [Nat.mul_zero, List.take_zero, pieces_nil n hn0]; rfl⟩
  | succ j ih =>
    by_cases hf : file = []
    · subst hf
      exact ⟨[], by simp⟩
    · obtain ⟨R, e⟩ := ih (file.drop n)
      refine ⟨R, ?_⟩
      have hpos : 0 < file.length := List.length_pos_iff.mpr hf
      have hne : file.take (n * (j + 1)) ≠ [] := by
        rw [← List.length_pos_iff, List.length_take]
        have : 0 < n * (j + 1) := Nat.mul_pos hn0 (by omega)
        omega
      unfold fileChunks at e ⊢
      rw [pieces_cons n hn0 file hf, pieces_cons n hn0 _ hne, List.flatMap_cons, List.flatMap_cons, e, List.append_assoc, List.take_take,
        Nat.min_eq_left (by rw [Nat.mul_add]; omega), List.drop_take, Nat.mul_add, Nat.mul_one, Nat.add_sub_cancel]

/-- C119, without assumptions on the bytes: files that begin with the same pieces give the same batches for these pieces. -/
theorem c119_before (x : CliCtx) (n : Nat) (hn0 : 0 < n) (file file' : Bytes) (j : Nat) (he : file.take (n * j) = file'.take (n * j))
    (f f' : Nat) (bs bs' : List EventBatch) (c c' : Clock)
    (h : cliRun x n f file = .ok (some (bs, c))) (h' : cliRun x n f' file' = .ok (some (bs', c'))) :
    (outputOf bs).take (fileChunks n (file.take (n * j))).length = (outputOf bs').take (fileChunks n (file.take (n * j))).length ∧
    (fileChunks n (file.take (n * j))).length ≤ bs.length := by
  have hlen : bs.length = (outputOf bs).length := by unfold outputOf; rw [List.length_map]
  rw [hlen, output_of_hits x n hn0 _ f bs c h, output_of_hits x n hn0 _ f' bs' c' h']
  obtain ⟨R, e⟩ := fileChunks_pieces n hn0 j file
  obtain ⟨R', e'⟩ := fileChunks_pieces n hn0 j file'
  rw [← he] at e'
  have key : ∀ (K R : List Chunk), ((chunkHits x.mode ⟨0, 0, 0⟩ (K ++ R)).map fun hs => (hs, eventsGiven x hs)).take K.length =
      (chunkHits x.mode ⟨0, 0, 0⟩ K).map fun hs => (hs, eventsGiven x hs) := by
    intro K R
    rw [chunkHits_append, List.map_append]
    exact List.take_left' (by rw [List.length_map, chunkHits_length])
  refine ⟨?_, ?_⟩
  · rw [e, e', key, key]
  · rw [List.length_map, chunkHits_length, e, List.length_append]
    omega

/-! ## Without the global clock a damaged trigger is never made good -/

theorem rollTime_shift (m p p' : Nat) (h : p' % 2 ^ 48 = (p + 2 ^ 32) % 2 ^ 48) :
    rollTime m p' % 2 ^ 48 = (rollTime m p + 2 ^ 32) % 2 ^ 48 := by
  have h1 : p' % 2 ^ 32 = p % 2 ^ 32 := by omega
  unfold rollTime
  rw [h1]
  split_ifs <;> omega

/-- C119: once the trigger time is a round of the 32-bit counter off, it stays off for ever, whatever packets follow. -/
theorem c119_false_heals (t t' : Times) (h : t'.tdc % 2 ^ 48 = (t.tdc + 2 ^ 32) % 2 ^ 48) (ws : List U64) :
    (timesT t' ws).tdc % 2 ^ 48 = ((timesT t ws).tdc + 2 ^ 32) % 2 ^ 48 := by
  induction ws generalizing t t' with
  | nil => exact h
  | cons w ws ih =>
    rw [timesT_cons, timesT_cons]
    apply ih
    unfold nextT
    split_ifs
    · exact rollTime_shift _ _ _ h
    · exact h

/-- C119: and then no hit has a time of flight any more, whatever packets follow (up to 65535 further triggers). -/
theorem c119_false_untimed (chip : Int) (ws : List U64) (t : Times) (h1 : 2 ^ 32 ≤ t.tdc)
    (h2 : t.tdc / 2 ^ 32 + ws.countP (fun w => IsTriggerPacket w) < 2 ^ 16) :
    ∀ h ∈ hitsT chip t ws, h.tof = none := by
  induction ws generalizing t with
  | nil => intro h hh; simp [hitsT, hitIndicesT] at hh
  | cons w ws ih =>
    intro h hh
    rw [hitsT_cons, List.mem_append] at hh
    rcases hh with hh | hh
    · split_ifs at hh with hw
      · rw [List.mem_singleton] at hh
        subst hh
        refine c06_false_late _ _ _ ?_
        rw [BitVec.toNat_ofNat]
        omega
      · simp at hh
    · refine ih (nextT w t) ?_ ?_ h hh
      · unfold nextT
        split_ifs with hw
        · show 2 ^ 32 ≤ rollTime _ _
          unfold rollTime
          split_ifs <;> omega
        · exact h1
      · rw [List.countP_cons] at h2
        unfold nextT
        split_ifs with hw
        · rw [if_pos (by simpa using hw)] at h2
          have hm : field w 12 32 < 2 ^ 32 := by unfold field; omega
          show rollTime (field w 12 32) t.tdc / 2 ^ 32 + _ < 2 ^ 16
          unfold rollTime
          split_ifs <;> omega
        · omega

/-! ## Witnesses -/

/-- A run on a file all of whose hits have a time and a time of flight ends. -/
theorem run_exists (x : CliCtx) (n : Nat) (hn0 : 0 < n) (file : Bytes) (hf : file ≠ []) (hno : ∀ b ∈ pieces n file, ¬ Overrun b)
    (hs : ∀ hs ∈ chunkHits x.mode ⟨0, 0, 0⟩ (fileChunks n file), ∀ h ∈ hs, h.spidertime.toNat < 2 ^ 48 ∧ h.tof ≠ none) :
    ∃ bs c, cliRun x n (file.length + 1) file = .ok (some (bs, c)) := by
  have hb := cliRun_any x n hn0 file hf (file.length + 1) hno (by omega)
  obtain ⟨v, hv⟩ := evAll_returns x (perChunk x.mode Clock.zero (fileChunks n file)) (by
    rw [perChunk_hits x.mode Clock.zero (by decide)]
    exact hs)
  rw [hv] at hb
  cases hr : cliRun x n (file.length + 1) file with
  | ub u => rw [hr] at hb; simp [runOutput, Res.bind] at hb
  | throws m => rw [hr] at hb; simp [runOutput, Res.bind] at hb
  | ok o =>
    rw [hr] at hb
    cases o with
    | none => simp [runOutput, Res.bind] at hb
    | some p => exact ⟨p.1, p.2, rfl⟩

theorem fileChunks_one (n : Nat) (ws : List U64) (h0 : ws ≠ []) (hl : 8 * ws.length ≤ n) :
    fileChunks n (ws.flatMap bytesOf) = announced ws := by
  have hlen : (ws.flatMap bytesOf).length = 8 * ws.length := by
    rw [List.length_flatMap, List.map_congr_left (g := fun _ => 8) (fun w _ => bytesOf_length w)]
    simp [Nat.mul_comm]
  have hpos : 0 < ws.length := List.length_pos_iff.mpr h0
  have hne : ws.flatMap bytesOf ≠ [] := by
    rw [← List.length_pos_iff, hlen]
    omega
  unfold fileChunks
  rw [pieces_cons n (by omega) _ hne, List.take_of_length_le (by omega), List.drop_of_length_le (by omega), pieces_nil n (by omega)]
  simp only [List.flatMap_cons, List.flatMap_nil, List.append_nil]
  rw [wordsOf_flatMap]

/-- The number of hits in each batch of a run. -/
def RunCounts (m : Mode) (n : Nat) (file : Bytes) (counts : List Nat) : Prop :=
  ∀ x : CliCtx, x.mode = m → (∃ f bs c, cliRun x n f file = .ok (some (bs, c))) ∧
    ∀ f bs c, cliRun x n f file = .ok (some (bs, c)) → bs.map (fun b => b.batch.hits.length) = counts

theorem runCounts (m : Mode) (n : Nat) (hn : n % 8 = 0) (ws : List U64) (h0 : ws ≠ []) (hl : 8 * ws.length ≤ n) (counts : List Nat)
    (hc : (chunkHits m ⟨0, 0, 0⟩ (announced ws)).map List.length = counts)
    (hs : ∀ hs ∈ chunkHits m ⟨0, 0, 0⟩ (announced ws), ∀ h ∈ hs, h.spidertime.toNat < 2 ^ 48 ∧ h.tof ≠ none) :
    RunCounts m n (ws.flatMap bytesOf) counts := by
  intro x hx
  subst hx
  have hlen : (ws.flatMap bytesOf).length = 8 * ws.length := by
    rw [List.length_flatMap, List.map_congr_left (g := fun _ => 8) (fun w _ => bytesOf_length w)]
    simp [Nat.mul_comm]
  have hpos : 0 < ws.length := List.length_pos_iff.mpr h0
  rw [← fileChunks_one n ws h0 hl] at hc hs
  refine ⟨?_, ?_⟩
  · obtain ⟨bs, c, h⟩ := run_exists x n (by omega) _ (by rw [← List.length_pos_iff, hlen]; omega) (piece_whole n hn _ (by rw [hlen]; omega)) hs
    exact ⟨_, bs, c, h⟩
  · intro f bs c h
    obtain ⟨-, h1, -⟩ := c94_hits x n (by omega) _ f bs c h
    rw [← hc, ← h1, List.map_map]
    rfl

/-- A chunk with the times, the word `u` and a hit. -/
def besideHit (u : U64) : List U64 :=
  [0x0028000033585054#64, 0x4400000000100000#64, 0x4500000000000000#64, 0x6F00000000014000#64, u, 0xB000000600000000#64]

/-- C119: a packet that becomes a header counts the hits after it twice. -/
theorem c119_false_lookalike : RunCounts .gdc 4096 ((besideHit 0).flatMap bytesOf) [1] ∧
    RunCounts .gdc 4096 ((besideHit 0x0008000033585054#64).flatMap bytesOf) [1, 1] :=
  ⟨runCounts _ _ (by decide) _ (by decide) (by decide) _ (by decide +kernel) (by decide +kernel),
    runCounts _ _ (by decide) _ (by decide) (by decide) _ (by decide +kernel) (by decide +kernel)⟩

/-- A chunk with the times, a chunk of an idle packet with the header `h`, and a chunk with a hit. -/
def beforeHit (h : U64) : List U64 := [0x0018000033585054#64, 0x4400000000100000#64, 0x4500000000000000#64, 0x6F00000000014000#64, h, 0#64,
  0x0008000033585054#64, 0xB000000600000000#64]

/-- C119: a header that announces more packets than are its own counts the hits of the next ones twice. -/
theorem c119_false_size : RunCounts .gdc 4096 ((beforeHit 0x0008000033585054#64).flatMap bytesOf) [0, 0, 1] ∧
    RunCounts .gdc 4096 ((beforeHit 0x0018000033585054#64).flatMap bytesOf) [0, 1, 1] :=
  ⟨runCounts _ _ (by decide) _ (by decide) (by decide) _ (by decide +kernel) (by decide +kernel),
    runCounts _ _ (by decide) _ (by decide) (by decide) _ (by decide +kernel) (by decide +kernel)⟩

/-- C119: one byte too few or too many at the beginning and nothing is found. -/
theorem c119_false_shift : fileChunks 4096 (((beforeHit 0x0008000033585054#64).flatMap bytesOf).drop 1) = [] ∧
    fileChunks 4096 (0#8 :: (beforeHit 0x0008000033585054#64).flatMap bytesOf) = [] := by
  have e : ∀ l : List Chunk, l.isEmpty = true → l = [] := fun l => List.isEmpty_iff.mp
  exact ⟨e _ (by decide +kernel), e _ (by decide +kernel)⟩

/-- A trigger packet, and in the next chunk a trigger and a hit. -/
def afterTrigger (t : U64) : List U64 :=
  [0x0008000033585054#64, t, 0x0010000033585054#64, 0x6F00000000006000#64, 0xB123400000A00009#64]

/-- C119: without the global clock, one trigger with a wrong bit leaves the later hits without times of flight. -/
theorem c119_false_trigger : RunCounts .tdc 4096 ((afterTrigger 0x6F00000000005000#64).flatMap bytesOf) [0, 1] ∧
    Unsound .tdc 4096 ((afterTrigger 0x6F00080000A05000#64).flatMap bytesOf) := by
  refine ⟨runCounts _ _ (by decide) _ (by decide) (by decide) _ (by decide +kernel) (by decide +kernel), .inr ?_⟩
  rw [fileChunks_one _ _ (by decide) (by decide)]
  have h2 : ∃ hs ∈ chunkHits .tdc ⟨0, 0, 0⟩ (announced (afterTrigger 0x6F00080000A05000#64)), ∃ h ∈ hs, h.tof = none := by
    decide +kernel
  obtain ⟨hs, hm, h, hh, e⟩ := h2
  exact ⟨hs, hm, h, hh, .inr e⟩

/-! ## The assumptions can be met -/

theorem noOverrun_plain (l ws : List U64) (hl : ∀ w ∈ l, ¬ StartsTPX w) (h : NoOverrun ws) : NoOverrun (l ++ ws) := by
  induction l with
  | nil => exact h
  | cons w l ih => exact ⟨fun hw => absurd hw (hl w (by simp)), ih fun v hv => hl v (by simp [hv])⟩

/-- What a detector writes is orderly. -/
theorem noOverrun_stream (cs : List Chunk) (hw : ∀ k ∈ cs, k.WellFormed) (hn : ∀ k ∈ cs, k.NoLookAlike) : NoOverrun (streamWords cs) := by
  induction cs with
  | nil => trivial
  | cons k cs ih =>
    have e : streamWords (k :: cs) = k.header :: (k.packets ++ streamWords cs) := rfl
    rw [e]
    refine ⟨fun _ => ?_, noOverrun_plain _ _ (hn k (by simp)) (ih (fun c hc => hw c (by simp [hc])) fun c hc => hn c (by simp [hc]))⟩
    rw [(hw k (by simp)).2, show 8 * k.packets.length / 8 = k.packets.length by omega, List.take_left' rfl]
    exact hn k (by simp)

theorem orderly_one (n : Nat) (ws : List U64) (h0 : ws ≠ []) (hl : 8 * ws.length ≤ n) (h : NoOverrun ws) : Orderly n (ws.flatMap bytesOf) := by
  have hlen : (ws.flatMap bytesOf).length = 8 * ws.length := by
    rw [List.length_flatMap, List.map_congr_left (g := fun _ => 8) (fun w _ => bytesOf_length w)]
    simp [Nat.mul_comm]
  have hpos : 0 < ws.length := List.length_pos_iff.mpr h0
  intro p hp
  rw [pieces_cons n (by omega) _ (by rw [← List.length_pos_iff, hlen]; omega), List.take_of_length_le (by omega),
    List.drop_of_length_le (by omega), pieces_nil n (by omega), List.mem_singleton] at hp
  rw [hp, wordsOf_flatMap]
  exact h

/-- The times and two hits, then a chunk with the times again, then a chunk with a hit; the hit packet `u` is the damaged one. -/
def damagedHit (u : U64) : List U64 := [0x0028000033585054#64, 0x4400000000100000#64, 0x4500000000000000#64, 0x6F00000000014000#64,
  u, 0xB000000600000000#64, 0x0018000033585054#64, 0x4400000000110000#64, 0x4500000000000000#64, 0x6F00000000014000#64,
  0x0008000033585054#64, 0xB000000600000000#64]

/-- `c119_packet`: a hit packet that is damaged beyond recognition.  The other two hits stay. -/
example : (damagedHit 0xB123000640000000#64).flatMap bytesOf =
      withWord (((damagedHit 0).take 4).flatMap bytesOf) 0xB123000640000000#64 (((damagedHit 0).drop 5).flatMap bytesOf) ∧
    (((damagedHit 0).take 4).flatMap bytesOf).length % 8 = 0 ∧
    (¬ StartsTPX 0xB123000640000000#64 ∧ ¬ IsTimePacket 0xB123000640000000#64) ∧ (¬ StartsTPX 0#64 ∧ ¬ IsTimePacket 0#64) ∧
    Orderly 4096 ((damagedHit 0xB123000640000000#64).flatMap bytesOf) ∧
    RunCounts .gdc 4096 ((damagedHit 0xB123000640000000#64).flatMap bytesOf) [2, 0, 1] ∧
    RunCounts .gdc 4096 ((damagedHit 0).flatMap bytesOf) [1, 0, 1] :=
  ⟨by decide +kernel, by decide +kernel, by decide +kernel, by decide +kernel,
    orderly_one _ _ (by decide) (by decide) (noOverrun_stream
      [⟨0x0028000033585054#64, [0x4400000000100000#64, 0x4500000000000000#64, 0x6F00000000014000#64, 0xB123000640000000#64, 0xB000000600000000#64]⟩,
        ⟨0x0018000033585054#64, [0x4400000000110000#64, 0x4500000000000000#64, 0x6F00000000014000#64]⟩,
        ⟨0x0008000033585054#64, [0xB000000600000000#64]⟩]
      (by
        intro k hk
        simp only [List.mem_cons, List.not_mem_nil, or_false] at hk
        rcases hk with rfl | rfl | rfl <;> decide)
      (by
        intro k hk w hw
        simp only [List.mem_cons, List.not_mem_nil, or_false] at hk
        rcases hk with rfl | rfl | rfl <;> simp only [List.mem_cons, List.not_mem_nil, or_false] at hw
        · rcases hw with rfl | rfl | rfl | rfl | rfl <;> decide
        · rcases hw with rfl | rfl | rfl <;> decide
        · rw [hw]
          decide)),
    runCounts _ _ (by decide) _ (by decide) (by decide) _ (by decide +kernel) (by decide +kernel),
    runCounts _ _ (by decide) _ (by decide) (by decide) _ (by decide +kernel) (by decide +kernel)⟩

/-- `c119_resync`: the packets of the chunk between give the times again. -/
example : GivesTimes [0x4400000000110000#64, 0x4500000000000000#64, 0x6F00000000014000#64] :=
  ⟨[], 0x4400000000110000#64, [], 0x4500000000000000#64, [], 0x6F00000000014000#64, [], rfl, by decide, by simp, by decide, by decide, by decide⟩

/-- `c119_header`, `c119_short`, `c119_cut`: the header of the last chunk lost or announcing nothing, or the file cut before it. -/
example : RunCounts .gdc 4096 (((damagedHit 0).take 10 ++ [0#64, 0xB000000600000000#64]).flatMap bytesOf) [1, 0] ∧
    RunCounts .gdc 4096 (((damagedHit 0).take 10 ++ [0x0000000033585054#64, 0xB000000600000000#64]).flatMap bytesOf) [1, 0, 0] ∧
    RunCounts .gdc 4096 (((damagedHit 0).take 11).flatMap bytesOf) [1, 0, 0] :=
  ⟨runCounts _ _ (by decide) _ (by decide) (by decide) _ (by decide +kernel) (by decide +kernel),
    runCounts _ _ (by decide) _ (by decide) (by decide) _ (by decide +kernel) (by decide +kernel),
    runCounts _ _ (by decide) _ (by decide) (by decide) _ (by decide +kernel) (by decide +kernel)⟩

/-- `c119_false_untimed`: a trigger time after a wrong roll-over, a trigger and a hit. -/
example : (hitsT 0 ⟨2 ^ 32 + 7, 0, 0⟩ [0x6F00000000006000#64, 0xB123400000A00009#64]).map Hit.tof = [none] := by decide +kernel

end Verif.Props
