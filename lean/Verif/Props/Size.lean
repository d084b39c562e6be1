import Verif.Spec.Size
import Verif.Props.Damage

/-!
# C122: hits and events that come out of a file of a given size
-/

namespace Verif.Props

open Verif Verif.Spec

theorem hitsM_length (m : Mode) (chip : Int) (t : Times) (ws : List U64) :
    (hitsIn m chip t ws).length ≤ ws.countP fun w => IsHitPacket w := by
  have key : ∀ (ws : List U64) (p : Nat → Prop) [DecidablePred p],
      ((List.range ws.length).filter fun i => IsHitPacket (ws.getD i 0) ∧ p i).length ≤ ws.countP fun w => IsHitPacket w := by
    intro ws
    induction ws with
    | nil => intro p _; simp
    | cons w ws ih =>
      intro p _
      have h := ih fun i => p (i + 1)
      rw [List.length_cons, List.range_succ_eq_map, List.filter_cons, List.filter_map, List.countP_cons]
      have e : (fun i => decide (IsHitPacket ((w :: ws).getD i 0) ∧ p i)) ∘ Nat.succ = fun i => decide (IsHitPacket (ws.getD i 0) ∧ p (i + 1)) := by
        funext i
        simp
      rw [e]
      have e0 : (w :: ws).getD 0 0 = w := rfl
      rw [e0]
      by_cases hw : IsHitPacket w
      · simp only [hw, decide_true, if_true]
        split_ifs
        · rw [List.length_cons, List.length_map]
          omega
        · rw [List.length_map]
          omega
      · rw [if_neg (by simp [hw]), List.length_map]
        simp only [hw, decide_false, Bool.false_eq_true, if_false]
        omega
  cases m with
  | gdc =>
    show (hitsG chip t ws).length ≤ _
    unfold hitsG hitIndicesG
    rw [List.length_map]
    exact key ws fun i => (timesG t (ws.take i)).tdc ≠ 0 ∧ (timesG t (ws.take i)).gdc ≠ 0
  | tdc =>
    show (hitsT chip t ws).length ≤ _
    unfold hitsT hitIndicesT
    rw [List.length_map]
    exact key ws fun i => (timesT t (ws.take i)).tdc ≠ 0

theorem chunkHits_total (m : Mode) (t : Times) (cs : List Chunk) :
    (chunkHits m t cs).flatten.length ≤ (cs.map fun c => c.packets.countP fun w => IsHitPacket w).sum := by
  induction cs generalizing t with
  | nil => simp [chunkHits]
  | cons c cs ih =>
    rw [chunkHits_cons, List.flatten_cons, List.length_append, List.map_cons, List.sum_cons]
    exact Nat.add_le_add (hitsM_length m _ t c.packets) (ih _)

theorem announced_length (ws : List U64) : (announced ws).length ≤ ws.length := by
  induction ws with
  | nil => simp [announced]
  | cons w ws ih =>
    rw [announced]
    split_ifs <;> simp <;> omega

/-- The hit packets among the words `m` places further on. -/
def laterHits (m : Nat) : List U64 → Nat
  | [] => 0
  | _ :: ws => (if (ws[m]?).any (fun w => IsHitPacket w) then 1 else 0) + laterHits m ws

theorem later_le (m : Nat) (ws : List U64) : laterHits m ws ≤ (ws.drop (m + 1)).countP fun w => IsHitPacket w := by
  induction ws with
  | nil => simp [laterHits]
  | cons w ws ih =>
    rw [laterHits, List.drop_succ_cons]
    by_cases hm : m < ws.length
    · rw [List.drop_eq_getElem_cons hm, List.countP_cons, List.getElem?_eq_getElem hm, Option.any_some]
      omega
    · have e : laterHits m ws = 0 := by
        have : ws.drop (m + 1) = [] := List.drop_eq_nil_of_le (by omega)
        rw [this] at ih
        simpa using ih
      rw [List.getElem?_eq_none (by omega), e]
      simp

/-- The hit packets in the `m` words after each word, all together. -/
def windowHits (m : Nat) : List U64 → Nat
  | [] => 0
  | _ :: ws => (ws.take m).countP (fun w => IsHitPacket w) + windowHits m ws

theorem window_succ (m : Nat) (ws : List U64) : windowHits (m + 1) ws = windowHits m ws + laterHits m ws := by
  induction ws with
  | nil => rfl
  | cons w ws ih =>
    rw [windowHits, windowHits, laterHits, ih, List.take_add_one, List.countP_append]
    cases ws[m]? <;> simp [List.countP_cons] <;> omega

theorem window_le (m : Nat) (ws : List U64) : windowHits m ws ≤ m * ws.countP fun w => IsHitPacket w := by
  induction m with
  | zero =>
    have : windowHits 0 ws = 0 := by
      induction ws with
      | nil => rfl
      | cons w ws ih => simp [windowHits, ih]
    omega
  | succ m ih =>
    rw [window_succ]
    have h1 := later_le m ws
    have h2 : (ws.drop (m + 1)).countP (fun w => IsHitPacket w) ≤ ws.countP fun w => IsHitPacket w :=
      (List.drop_sublist _ _).countP_le
    rw [Nat.add_mul, Nat.one_mul]
    omega

theorem take_split (n m : Nat) (ws : List U64) (h : m ≤ n) :
    (ws.take n).countP (fun w => IsHitPacket w) ≤ (ws.take m).countP (fun w => IsHitPacket w) + (n - m) := by
  have e : ws.take n = ws.take m ++ (ws.drop m).take (n - m) := by
    rw [← List.take_add]
    congr 1
    omega
  rw [e, List.countP_append]
  have h1 : ((ws.drop m).take (n - m)).countP (fun w => IsHitPacket w) ≤ ((ws.drop m).take (n - m)).length := List.countP_le_length
  have h2 := List.length_take_le (n - m) (ws.drop m)
  omega

/-- A header that is a hit packet as well announces at most 6143 packets. -/
theorem hit_header (w : U64) (h : IsHitPacket w) : field w 48 16 / 8 ≤ 6143 := by
  unfold IsHitPacket kind at h
  have e : field w 60 4 = field w 48 16 / 2 ^ 12 % 2 ^ 4 := by
    unfold field
    omega
  have hlt : field w 48 16 < 2 ^ 16 := by
    unfold field
    omega
  omega

theorem any_header (w : U64) : field w 48 16 / 8 ≤ 8191 := by
  have hlt : field w 48 16 < 2 ^ 16 := by
    unfold field
    omega
  omega

theorem announced_hits (ws : List U64) :
    ((announced ws).map fun c => c.packets.countP fun w => IsHitPacket w).sum ≤ 6143 * ws.length := by
  have key : ∀ ws : List U64, ((announced ws).map fun c => c.packets.countP fun w => IsHitPacket w).sum ≤
      windowHits 6143 ws + 2048 * ws.countP fun w => ¬ IsHitPacket w := by
    intro ws
    induction ws with
    | nil => simp [announced, windowHits]
    | cons w ws ih =>
      rw [announced, windowHits, List.countP_cons]
      by_cases hs : StartsTPX w
      · rw [if_pos hs, List.map_cons, List.sum_cons]
        have ha := any_header w
        by_cases hw : IsHitPacket w
        · have hh := hit_header w hw
          have : (ws.take (field w 48 16 / 8)).countP (fun w => IsHitPacket w) ≤ (ws.take 6143).countP fun w => IsHitPacket w :=
            (List.take_sublist_take_left hh).countP_le
          simp only [hw, not_true_eq_false, decide_false, Bool.false_eq_true, if_false]
          omega
        · have : (ws.take (field w 48 16 / 8)).countP (fun w => IsHitPacket w) ≤ (ws.take 6143).countP (fun w => IsHitPacket w) + 2048 := by
            by_cases hb : 6143 ≤ field w 48 16 / 8
            · have := take_split (field w 48 16 / 8) 6143 ws hb
              omega
            · have : (ws.take (field w 48 16 / 8)).countP (fun w => IsHitPacket w) ≤ (ws.take 6143).countP fun w => IsHitPacket w :=
                (List.take_sublist_take_left (by omega)).countP_le
              omega
          simp only [hw, not_false_eq_true, decide_true, if_true]
          omega
      · rw [if_neg hs]
        split_ifs <;> omega
  have h1 := key ws
  have h2 := window_le 6143 ws
  have h3 : ws.length = ws.countP (fun w => IsHitPacket w) + ws.countP fun w => ¬ IsHitPacket w := by
    rw [List.length_eq_countP_add_countP (fun w => decide (IsHitPacket w))]
    congr 1
    apply List.countP_congr
    intro a _
    simp
  omega

theorem pieces_words (n : Nat) (hn : 0 < n) (file : Bytes) :
    8 * ((pieces n file).map fun p => (wordsOf p).length).sum ≤ file.length := by
  conv_rhs => rw [← pieces_flatten n hn file]
  induction pieces n file with
  | nil => simp
  | cons p ps ih =>
    rw [List.map_cons, List.sum_cons, List.flatten_cons, List.length_append, wordsOf_length]
    omega

theorem sum_flatMap {α β : Type} (f : β → Nat) (g : α → List β) (l : List α) :
    ((l.flatMap g).map f).sum = (l.map fun a => ((g a).map f).sum).sum := by
  induction l with
  | nil => rfl
  | cons a l ih => rw [List.flatMap_cons, List.map_append, List.sum_append, ih, List.map_cons, List.sum_cons]

theorem sum_le {α : Type} (f g : α → Nat) (l : List α) (h : ∀ a ∈ l, f a ≤ g a) : (l.map f).sum ≤ (l.map g).sum := by
  induction l with
  | nil => simp
  | cons a l ih =>
    rw [List.map_cons, List.map_cons, List.sum_cons, List.sum_cons]
    have := h a (by simp)
    have := ih fun b hb => h b (by simp [hb])
    omega

/-- C122: there are at most as many batches as words, a batch has at most 8191 hits, and all together at most 6143 for each word of the
file: 768 for each byte. -/
theorem c122_hits (x : CliCtx) (n : Nat) (hn : 0 < n) (file : Bytes) (fuel : Nat) (bs : List EventBatch) (c : Clock)
    (h : cliRun x n fuel file = .ok (some (bs, c))) :
    8 * bs.length ≤ file.length ∧ (∀ b ∈ bs, b.batch.hits.length ≤ 8191) ∧
    8 * (bs.flatMap fun b => b.batch.hits).length ≤ 6143 * file.length := by
  obtain ⟨-, h2, -⟩ := c94_hits x n hn file fuel bs c h
  have hw := pieces_words n hn file
  refine ⟨?_, ?_, ?_⟩
  · have e : bs.length = (fileChunks n file).length := by
      rw [← chunkHits_length x.mode ⟨0, 0, 0⟩, ← h2, List.length_map]
    have e2 : (fileChunks n file).length = ((pieces n file).map fun p => (announced (wordsOf p)).length).sum := by
      unfold fileChunks
      rw [List.length_flatMap]
    have := sum_le (fun p => (announced (wordsOf p)).length) (fun p => (wordsOf p).length) (pieces n file)
      fun p _ => announced_length _
    omega
  · intro b hb
    have hm : b.batch.hits ∈ chunkHits x.mode ⟨0, 0, 0⟩ (fileChunks n file) := by
      rw [← h2]
      exact List.mem_map_of_mem hb
    have key : ∀ (t : Times) (cs : List Chunk), (∀ k ∈ cs, k.packets.length ≤ 8191) → ∀ hs ∈ chunkHits x.mode t cs, hs.length ≤ 8191 := by
      intro t cs
      induction cs generalizing t with
      | nil => simp [chunkHits]
      | cons k cs ih =>
        intro hk hs hhs
        rw [chunkHits_cons, List.mem_cons] at hhs
        rcases hhs with rfl | hhs
        · exact (hitsM_length x.mode _ t k.packets).trans (List.countP_le_length.trans (hk k (by simp)))
        · exact ih _ (fun k' hk' => hk k' (by simp [hk'])) hs hhs
    refine key _ _ ?_ _ hm
    intro k hk
    unfold fileChunks at hk
    rw [List.mem_flatMap] at hk
    obtain ⟨p, -, hk⟩ := hk
    revert hk
    induction wordsOf p with
    | nil => simp [announced]
    | cons w ws ih =>
      rw [announced]
      split_ifs
      · rw [List.mem_cons]
        rintro (rfl | hk)
        · exact (List.length_take_le _ _).trans (any_header w)
        · exact ih hk
      · exact ih
  · have e : (bs.flatMap fun b => b.batch.hits) = (chunkHits x.mode ⟨0, 0, 0⟩ (fileChunks n file)).flatten := by
      rw [← h2, List.flatMap_def]
    rw [e]
    have h3 := chunkHits_total x.mode ⟨0, 0, 0⟩ (fileChunks n file)
    have h4 : ((fileChunks n file).map fun c => c.packets.countP fun w => IsHitPacket w).sum ≤
        ((pieces n file).map fun p => 6143 * (wordsOf p).length).sum := by
      unfold fileChunks
      rw [sum_flatMap]
      exact sum_le _ _ _ fun p _ => announced_hits _
    have h5 : ((pieces n file).map fun p => 6143 * (wordsOf p).length).sum = 6143 * ((pieces n file).map fun p => (wordsOf p).length).sum := by
      induction pieces n file with
      | nil => rfl
      | cons p ps ih =>
        rw [List.map_cons, List.map_cons, List.sum_cons, List.sum_cons, ih]
        omega
    omega

/-- C122: if no header lies among the words that another one announces, every word is a header, a hit or neither. -/
theorem c122_linear (x : CliCtx) (n : Nat) (hn : 0 < n) (file : Bytes) (hd : ∀ p ∈ pieces n file, ¬ Nested (wordsOf p)) (fuel : Nat)
    (bs : List EventBatch) (c : Clock) (h : cliRun x n fuel file = .ok (some (bs, c))) :
    8 * ((bs.flatMap fun b => b.batch.hits).length + bs.length) ≤ file.length := by
  obtain ⟨-, h2, -⟩ := c94_hits x n hn file fuel bs c h
  have hw := pieces_words n hn file
  have e : (bs.flatMap fun b => b.batch.hits) = (chunkHits x.mode ⟨0, 0, 0⟩ (fileChunks n file)).flatten := by
    rw [← h2, List.flatMap_def]
  have eb : bs.length = (fileChunks n file).length := by
    rw [← chunkHits_length x.mode ⟨0, 0, 0⟩, ← h2, List.length_map]
  have key : ∀ (k : Nat) (ws : List U64), ws.length = k → ¬ Nested ws →
      ((announced ws).map fun c => c.packets.countP (fun w => IsHitPacket w) + 1).sum ≤ ws.length := by
    intro k
    induction k using Nat.strong_induction_on with
    | _ k ih =>
      intro ws hk hno
      cases ws with
      | nil => simp [announced]
      | cons w ws =>
        have hsub : ∀ j, ¬ Nested (ws.drop j) := by
          rintro j ⟨pre, u, mid, v, post, e, h1, h2, h3⟩
          refine hno ⟨w :: (ws.take j ++ pre), u, mid, v, post, ?_, h1, h2, h3⟩
          rw [List.cons_append, List.append_assoc, ← e, List.take_append_drop]
        rw [announced]
        split_ifs with hs
        · rw [List.map_cons, List.sum_cons]
          have skip : ∀ j, j ≤ field w 48 16 / 8 → announced ws = announced (ws.drop j) := by
            intro j
            induction j with
            | zero => intro _; rfl
            | succ j ihj =>
              intro hj
              rw [ihj (by omega)]
              by_cases hl : j < ws.length
              · rw [List.drop_eq_getElem_cons hl, announced, if_neg]
                intro hv
                refine hno ⟨[], w, ws.take j, ws[j], ws.drop (j + 1), ?_, hs, hv, ?_⟩
                · rw [List.nil_append, ← List.drop_eq_getElem_cons hl, List.take_append_drop]
                · rw [List.length_take]
                  omega
              · rw [List.drop_eq_nil_of_le (by omega), List.drop_eq_nil_of_le (by omega)]
          rw [skip _ le_rfl]
          have h5 := ih (ws.drop (field w 48 16 / 8)).length (by rw [← hk, List.length_cons, List.length_drop]; omega) _ rfl (hsub _)
          have h6 : (ws.take (field w 48 16 / 8)).countP (fun w => IsHitPacket w) ≤ (ws.take (field w 48 16 / 8)).length :=
            List.countP_le_length
          rw [List.length_take] at h6
          rw [List.length_drop] at h5
          rw [List.length_cons]
          dsimp only
          omega
        · have := ih ws.length (by rw [← hk, List.length_cons]; omega) ws rfl (hsub 0)
          rw [List.length_cons]
          omega
  have h3 := chunkHits_total x.mode ⟨0, 0, 0⟩ (fileChunks n file)
  have h4 : ((fileChunks n file).map fun c => c.packets.countP (fun w => IsHitPacket w) + 1).sum ≤
      ((pieces n file).map fun p => (wordsOf p).length).sum := by
    unfold fileChunks
    rw [sum_flatMap]
    exact sum_le _ _ _ fun p hp => key _ _ rfl (hd p hp)
  have h5 : ((fileChunks n file).map fun c => c.packets.countP (fun w => IsHitPacket w) + 1).sum =
      ((fileChunks n file).map fun c => c.packets.countP (fun w => IsHitPacket w)).sum + (fileChunks n file).length := by
    induction fileChunks n file with
    | nil => rfl
    | cons p ps ih =>
      rw [List.map_cons, List.map_cons, List.sum_cons, List.sum_cons, ih, List.length_cons]
      omega
  rw [e, eb]
  omega

/-! ## Events -/

theorem res_bind {α β : Type} {a : Res α} {f : α → Res β} {b : β} (h : (a >>= f) = .ok b) : ∃ x, a = .ok x ∧ f x = .ok b := by
  cases a with
  | ok x => exact ⟨x, rfl, h⟩
  | throws e => cases h
  | ub u => cases h

theorem set_sum (acc : List (List Nat)) (j : Nat) (hj : j < acc.length) (v : List Nat) :
    ((acc.set j v).map List.length).sum + (acc.getD j []).length = (acc.map List.length).sum + v.length := by
  induction acc generalizing j with
  | nil => simp at hj
  | cons a acc ih =>
    cases j with
    | zero => simp; omega
    | succ j =>
      have := ih j (by simpa using hj)
      simp only [List.set_cons_succ, List.map_cons, List.sum_cons, List.getD_cons_succ]
      omega

theorem index_sum (i : Nat) (ls : List Int) (acc r : List (List Nat)) (h : indexLoop i ls acc = .ok r) :
    (r.map List.length).sum = (acc.map List.length).sum + ls.length := by
  induction ls generalizing i acc with
  | nil =>
    rw [indexLoop, Res.ok.injEq] at h
    rw [h]
    rfl
  | cons l ls ih =>
    rw [indexLoop] at h
    split_ifs at h with hl
    have h1 := ih _ _ h
    have h2 := set_sum acc l.toNat hl.2 (acc.getD l.toNat [] ++ [i])
    rw [List.length_append, List.length_singleton] at h2
    rw [h1, List.length_cons]
    omega

theorem gather_length (data : List Hit) (is : List Nat) (r : List Hit) (h : AbsObj.gather data is = .ok r) : r.length = is.length := by
  induction is generalizing r with
  | nil =>
    rw [AbsObj.gather, Res.ok.injEq] at h
    rw [← h]
    rfl
  | cons i is ih =>
    rw [AbsObj.gather] at h
    split at h
    · cases h
    · cases hg : AbsObj.gather data is with
      | ok hs =>
        rw [hg] at h
        have h : Res.ok (_ :: hs) = Res.ok r := h
        rw [Res.ok.injEq] at h
        rw [← h, List.length_cons, List.length_cons, ih hs hg]
      | throws e => rw [hg] at h; cases h
      | ub u => rw [hg] at h; cases h

theorem events_sum (o : AbsObj) (alg : List Hit → Res Neutron) (data : List Hit) (fuel label : Nat) (es : List Neutron)
    (h : o.eventLoop alg data fuel label = .ok es) :
    es.length ≤ fuel ∧ o.params.minSize * es.length ≤ ((o.indices.drop label).map List.length).sum := by
  induction fuel generalizing label es with
  | zero =>
    rw [AbsObj.eventLoop, Res.ok.injEq] at h
    rw [← h]
    simp
  | succ fuel ih =>
    rw [AbsObj.eventLoop] at h
    split at h
    · cases h
    · rename_i is his
      obtain ⟨hl, hget⟩ := List.getElem?_eq_some_iff.mp his
      rw [List.drop_eq_getElem_cons hl, hget, List.map_cons, List.sum_cons]
      cases hg : AbsObj.gather data is with
      | throws e => rw [hg] at h; cases h
      | ub u => rw [hg] at h; cases h
      | ok cl =>
        rw [hg] at h
        have h : (if cl.length < o.params.minSize then o.eventLoop alg data fuel (label + 1)
          else (alg cl).bind fun e => (o.eventLoop alg data fuel (label + 1)).bind fun rest =>
            .ok (if AbsObj.keepEvent e then e :: rest else rest)) = Res.ok es := h
        have hcl := gather_length data is cl hg
        split_ifs at h with hm
        · have := ih _ _ h
          omega
        · cases ha : alg cl with
          | throws e => rw [ha] at h; cases h
          | ub u => rw [ha] at h; cases h
          | ok e =>
            rw [ha] at h
            cases hr : o.eventLoop alg data fuel (label + 1) with
            | throws e => rw [hr] at h; cases h
            | ub u => rw [hr] at h; cases h
            | ok rest =>
              rw [hr] at h
              have h : Res.ok (if AbsObj.keepEvent e then e :: rest else rest) = Res.ok es := h
              rw [Res.ok.injEq] at h
              have h1 := ih _ _ hr
              have h2 : es.length ≤ rest.length + 1 := by
                rw [← h]
                split_ifs <;> simp
              refine ⟨by omega, ?_⟩
              calc o.params.minSize * es.length ≤ o.params.minSize * (rest.length + 1) := Nat.mul_le_mul_left _ h2
                _ = o.params.minSize * rest.length + o.params.minSize := by rw [Nat.mul_add, Nat.mul_one]
                _ ≤ _ := by omega

theorem maxLabel_lt (ls : List Int) (k : Nat) (hk : ∀ l : Int, l ∈ ls → 0 ≤ l ∧ l < k) : (AbsObj.maxLabelOf ls + 1).toNat ≤ k := by
  cases ls with
  | nil => simp [AbsObj.maxLabelOf]
  | cons a ls =>
    have key : ∀ (ls : List Int) (a : Int), a < k → (∀ l ∈ ls, l < (k : Int)) → ls.foldl max a < k := by
      intro ls
      induction ls with
      | nil => intro a ha _; exact ha
      | cons b ls ih =>
        intro a ha hl
        exact ih _ (max_lt ha (hl b (by simp))) fun l hl' => hl l (by simp [hl'])
    have := key ls a (hk a (by simp)).2 fun l hl => (hk l (by simp [hl])).2
    rw [AbsObj.maxLabelOf]
    omega

/-- C122: the events of a batch have at least one hit each, and at least as many as the settings ask for. -/
theorem c122_events (x : CliCtx) (hs : List Hit) (es : List Neutron) (h : eventsOf x hs = .ok es) :
    es.length ≤ hs.length ∧ x.params.minSize * es.length ≤ hs.length := by
  unfold eventsOf at h
  cases hf : (AbsObj.new x.params).fit hs with
  | throws e => rw [hf] at h; cases h
  | ub u => rw [hf] at h; cases h
  | ok a =>
    rw [hf] at h
    have h : a.getEvents x.solve hs = .ok es := h
    obtain ⟨hlen, ⟨k, hk⟩, -⟩ := c24_labels _ _ _ hf
    have hp : a.params = x.params ∧ ∃ acc, (acc.map List.length).sum = 0 ∧ indexLoop 0 a.labels acc = .ok a.indices := by
      unfold AbsObj.fit AbsObj.fitWith at hf
      obtain ⟨st, -, hf⟩ := res_bind hf
      obtain ⟨idx, hi, hf⟩ := res_bind hf
      rw [Res.ok.injEq] at hf
      subst hf
      refine ⟨rfl, _, ?_, hi⟩
      simp
    obtain ⟨hp, acc, hacc, hi⟩ := hp
    have hsum := index_sum _ _ _ _ hi
    unfold AbsObj.getEvents at h
    split_ifs at h with h1 h2
    · rw [Res.ok.injEq] at h
      rw [← h]
      simp
    · split at h
      · cases h
      · obtain ⟨h3, h4⟩ := events_sum a _ hs _ 0 es h
        have h5 := maxLabel_lt a.labels k fun l hl => (hk l).mp hl
        have h6 : k ≤ a.labels.length := by
          have hsub : (List.range k).map (fun (i : Nat) => (i : Int)) ⊆ a.labels := by
            intro l hl
            rw [List.mem_map] at hl
            obtain ⟨i, hi, rfl⟩ := hl
            exact (hk i).mpr ⟨by omega, by have := List.mem_range.mp hi; omega⟩
          have hnd : ((List.range k).map (fun (i : Nat) => (i : Int))).Nodup :=
            List.nodup_range.map fun a b h => by simpa using h
          have := (hnd.subperm hsub).length_le
          simpa using this
        rw [List.drop_zero, hp] at h4
        omega

/-- C122 for a run: at most as many events as hits, and the hits of all of them together. -/
theorem c122_events_run (x : CliCtx) (n : Nat) (hn : 0 < n) (file : Bytes) (fuel : Nat) (bs : List EventBatch) (c : Clock)
    (h : cliRun x n fuel file = .ok (some (bs, c))) :
    (bs.flatMap EventBatch.neutrons).length ≤ (bs.flatMap fun b => b.batch.hits).length ∧
    x.params.minSize * (bs.flatMap EventBatch.neutrons).length ≤ (bs.flatMap fun b => b.batch.hits).length := by
  obtain ⟨-, -, h3⟩ := c94_hits x n hn file fuel bs c h
  clear h
  induction bs with
  | nil => simp
  | cons b bs ih =>
    have h1 := c122_events x _ _ (h3 b (by simp))
    have h2 := ih fun b' hb => h3 b' (by simp [hb])
    rw [List.flatMap_cons, List.flatMap_cons, List.length_append, List.length_append, Nat.mul_add]
    omega

/-- C122: the loop that takes whole periods off the time of flight is still running after n rounds exactly if more than n are needed. -/
theorem c122_rounds (n : Nat) (t : U32) : foldTof n t = none ↔ 666800 + 666667 * n < t.toNat := by
  induction n generalizing t with
  | zero =>
    rw [foldTof]
    by_cases h : tofTooLarge t = true
    · have := (tofTooLarge_iff t).mp h
      simp only [h, if_true, true_iff]
      omega
    · have h' := h
      rw [tofTooLarge_iff] at h'
      rw [if_neg h]
      simp
      omega
  | succ n ih =>
    rw [foldTof]
    by_cases h : tofTooLarge t = true
    · have h1 := (tofTooLarge_iff t).mp h
      rw [if_pos h, ih, BitVec.toNat_sub]
      have := t.isLt
      simp only [BitVec.toNat_ofNat, Nat.reducePow, Nat.reduceMod]
      omega
    · have h' := h
      rw [tofTooLarge_iff] at h'
      rw [if_neg h]
      simp
      omega

/-- C122: it runs at most 6442 times, and 6442 times for some hits. -/
theorem c122_rounds_most : (∀ t : U32, foldTof 6442 t ≠ none) ∧ foldTof 6441 0xFFFFFFFF#32 = none := by
  refine ⟨fun t h => ?_, ?_⟩
  · rw [c122_rounds] at h
    have := t.isLt
    omega
  · rw [c122_rounds]
    decide

/-! ## A file that makes much of little -/

/-- A header of chip 0 that announces 6143 packets and is a hit packet of type 0xb. -/
def bombWord : U64 := 0xBFF8000033585054#64

/-- A chunk with a global time and a trigger, and then only that word. -/
def bombWords (k : Nat) : List U64 :=
  [0x0018000033585054#64, 0x4400000003E80000#64, 0x4500000000010000#64, 0x6F00000000001000#64] ++ List.replicate k bombWord

def bombFile (k : Nat) : Bytes := (bombWords k).flatMap bytesOf

def bombTimes (m : Mode) : Times := timesOf m ⟨0, 0, 0⟩ [0x4400000003E80000#64, 0x4500000000010000#64, 0x6F00000000001000#64]

def bombHit (m : Mode) : Hit :=
  match m with
  | .gdc => hitGdc bombWord (BitVec.ofNat 64 (bombTimes .gdc).tdc) (BitVec.ofNat 64 (bombTimes .gdc).gdc) 0
  | .tdc => hitTdc bombWord (BitVec.ofNat 64 (bombTimes .tdc).tdc) 0

theorem bomb_sound (m : Mode) : (bombHit m).spidertime.toNat < 2 ^ 48 ∧ (bombHit m).tof ≠ none := by
  cases m with
  | gdc =>
    refine ⟨?_, hitGdc_defined _ _ _ _⟩
    unfold bombHit
    rw [hitGdc_spidertime]
    decide +kernel
  | tdc => decide +kernel

theorem bomb_hits (m : Mode) (j : Nat) :
    hitsIn m 0 (bombTimes m) (List.replicate j bombWord) = List.replicate j (bombHit m) ∧
    timesOf m (bombTimes m) (List.replicate j bombWord) = bombTimes m := by
  have h0 : hitsIn m 0 (bombTimes m) [bombWord] = [bombHit m] ∧ timesOf m (bombTimes m) [bombWord] = bombTimes m := by
    cases m with
    | gdc =>
      refine ⟨?_, by decide +kernel⟩
      show hitsG 0 (bombTimes .gdc) [bombWord] = _
      rw [hitsG_cons, if_pos (by decide +kernel)]
      rfl
    | tdc => decide +kernel
  induction j with
  | zero => cases m <;> exact ⟨rfl, rfl⟩
  | succ j ih =>
    have e : List.replicate (j + 1) bombWord = [bombWord] ++ List.replicate j bombWord := by
      rw [List.replicate_succ]
      rfl
    rw [e, hitsIn_append, timesOf_append, h0.2, h0.1, ih.1, ih.2, List.replicate_succ]
    exact ⟨rfl, rfl⟩

theorem bomb_chunks (m : Mode) (k : Nat) :
    chunkHits m (bombTimes m) (announced (List.replicate k bombWord)) =
      (List.range k).reverse.map fun i => List.replicate (min 6143 i) (bombHit m) := by
  have hs : StartsTPX bombWord := by decide
  have hf : field bombWord 48 16 / 8 = 6143 := by decide
  have hc : headerChipId bombWord = 0 := by decide
  induction k with
  | zero => cases m <;> rfl
  | succ k ih =>
    rw [List.replicate_succ, announced, if_pos hs, hf, chunkHits_cons, List.range_succ, List.reverse_append, List.map_append]
    dsimp only
    rw [List.take_replicate, hc, (bomb_hits m _).1, (bomb_hits m _).2, ih]
    rfl

theorem bomb_words (k : Nat) : wordsOf (bombFile k) = bombWords k := wordsOf_flatMap _

theorem bomb_length (k : Nat) : (bombFile k).length = 8 * (k + 4) := by
  have : ∀ ws : List U64, (ws.flatMap bytesOf).length = 8 * ws.length := by
    intro ws
    induction ws with
    | nil => rfl
    | cons w ws ih =>
      rw [List.flatMap_cons, List.length_append, ih, List.length_cons, bytesOf_length]
      omega
  rw [bombFile, this, bombWords, List.length_append, List.length_replicate]
  simp only [List.length_cons, List.length_nil]
  omega

/-- C122 with one hit for each word is false: this file of k + 4 words gives min 6143 i hits for every i below k, so the number for each
word comes as near to 6143 as one likes. -/
theorem c122_false_words (x : CliCtx) (k n : Nat) (hn : 8 * (k + 4) ≤ n) :
    ∃ bs c, cliRun x n (8 * (k + 4) + 1) (bombFile k) = .ok (some (bs, c)) ∧
      (bs.flatMap fun b => b.batch.hits).length = ((List.range k).map (min 6143)).sum := by
  have hl := bomb_length k
  have hp : pieces n (bombFile k) = [bombFile k] := by
    have hne : bombFile k ≠ [] := by
      intro e
      rw [e] at hl
      simp at hl
    rw [pieces_cons n (by omega) _ hne, List.take_of_length_le (by omega), List.drop_eq_nil_of_le (by omega), pieces_nil n (by omega)]
  have hch : chunkHits x.mode ⟨0, 0, 0⟩ (fileChunks n (bombFile k)) =
      [] :: (List.range k).reverse.map fun i => List.replicate (min 6143 i) (bombHit x.mode) := by
    have hs : StartsTPX 0x0018000033585054#64 := by decide
    have hf : field 0x0018000033585054#64 48 16 / 8 = 3 := by decide
    have n1 : ¬ StartsTPX 0x4400000003E80000#64 := by decide
    have n2 : ¬ StartsTPX 0x4500000000010000#64 := by decide
    have n3 : ¬ StartsTPX 0x6F00000000001000#64 := by decide
    unfold fileChunks
    rw [hp, List.flatMap_cons, List.flatMap_nil, List.append_nil, bomb_words, bombWords]
    rw [List.cons_append, List.cons_append, List.cons_append, List.cons_append, List.nil_append]
    rw [announced, if_pos hs, hf, announced, if_neg n1, announced, if_neg n2, announced, if_neg n3, chunkHits_cons]
    dsimp only [List.take_succ_cons, List.take_zero]
    have e : hitsIn x.mode (headerChipId 0x0018000033585054#64) ⟨0, 0, 0⟩
        [0x4400000003E80000#64, 0x4500000000010000#64, 0x6F00000000001000#64] = [] := by
      cases x.mode <;> decide +kernel
    rw [e]
    exact congrArg _ (bomb_chunks x.mode k)
  obtain ⟨bs, c, h⟩ := run_exists x n (by omega) (bombFile k) (by
      intro e
      rw [e] at hl
      simp at hl) (by
      rw [hp]
      intro b hb
      rw [List.mem_singleton] at hb
      subst hb
      rintro ⟨h1, -⟩
      rw [hl] at h1
      omega) (by
      rw [hch]
      intro hs hm h hh
      rw [List.mem_cons] at hm
      rcases hm with rfl | hm
      · simp at hh
      · rw [List.mem_map] at hm
        obtain ⟨i, -, rfl⟩ := hm
        rw [List.eq_of_mem_replicate hh]
        exact bomb_sound x.mode)
  rw [hl] at h
  refine ⟨bs, c, h, ?_⟩
  have h2 := (c94_hits x n (by omega) _ _ bs c h).2.1
  have e : (bs.flatMap fun b => b.batch.hits) = (chunkHits x.mode ⟨0, 0, 0⟩ (fileChunks n (bombFile k))).flatten := by
    rw [← h2, List.flatMap_def]
  rw [e, hch, List.flatten_cons, List.nil_append, List.length_flatten, List.map_map]
  have e2 : (List.length ∘ fun i => List.replicate (min 6143 i) (bombHit x.mode)) = min 6143 := by
    funext i
    simp
  rw [e2, List.map_reverse, List.sum_reverse]

/-- C122: the factor 6143 is the best one: each further word of that file gives 6143 hits. -/
theorem c122_sharp (x : CliCtx) (k n : Nat) (hn : 8 * (k + 6147) ≤ n) :
    ∃ (file : Bytes) (fuel : Nat) (bs : List EventBatch) (c : Clock), file.length = 8 * (k + 6147) ∧
      cliRun x n fuel file = .ok (some (bs, c)) ∧ 6143 * k ≤ (bs.flatMap fun b => b.batch.hits).length := by
  obtain ⟨bs, c, h, e⟩ := c122_false_words x (6143 + k) n (by omega)
  refine ⟨bombFile (6143 + k), _, bs, c, by rw [bomb_length]; omega, h, ?_⟩
  rw [e, List.range_add, List.map_append, List.sum_append, List.map_map]
  have : ((List.range k).map (min 6143 ∘ fun x => 6143 + x)).sum = 6143 * k := by
    have e3 : (min 6143 ∘ fun x => 6143 + x) = fun _ : Nat => 6143 := by
      funext i
      simp
    rw [e3, List.map_const', List.sum_replicate, List.length_range]
    exact Nat.mul_comm _ _
  omega

/-- A file of 131072 words (a mebibyte) with more than seven hundred million hits. -/
example : ∃ (file : Bytes) (fuel : Nat) (bs : List EventBatch) (c : Clock), file.length = 2 ^ 20 ∧
    cliRun ⟨.gdc, ⟨.fin 5, 1, 75⟩, noSolve⟩ (2 ^ 20) fuel file = .ok (some (bs, c)) ∧
    700000000 < (bs.flatMap fun b => b.batch.hits).length := by
  obtain ⟨file, fuel, bs, c, h1, h2, h3⟩ := c122_sharp ⟨.gdc, ⟨.fin 5, 1, 75⟩, noSolve⟩ 124925 (2 ^ 20) (by norm_num)
  exact ⟨file, fuel, bs, c, by rw [h1]; norm_num, h2, by omega⟩

/-- A file in which nothing is nested, and its run. -/
example : (∀ p ∈ pieces 1000 (bombFile 0), ¬ Nested (wordsOf p)) ∧
    ∃ bs c, cliRun ⟨.gdc, ⟨.fin 5, 1, 75⟩, noSolve⟩ 1000 33 (bombFile 0) = .ok (some (bs, c)) := by
  constructor
  · have hp : pieces 1000 (bombFile 0) = [bombFile 0] := by decide +kernel
    rw [hp]
    intro p hp
    rw [List.mem_singleton] at hp
    subst hp
    rintro ⟨pre, w, mid, v, post, h, hw, hv, -⟩
    rw [bomb_words] at h
    have hn : ∀ u ∈ (bombWords 0).tail, ¬ StartsTPX u := by
      intro u hu
      simp only [bombWords, List.replicate_zero, List.append_nil, List.tail_cons, List.mem_cons, List.not_mem_nil, or_false] at hu
      rcases hu with rfl | rfl | rfl <;> decide
    refine hn v ?_ hv
    rw [h]
    cases pre <;> simp
  · obtain ⟨bs, c, h, -⟩ := c122_false_words ⟨.gdc, ⟨.fin 5, 1, 75⟩, noSolve⟩ 0 1000 (by norm_num)
    exact ⟨bs, c, h⟩

end Verif.Props
