import Verif.Model.Parallel
import Verif.Props.Abs

/-!
# Schedule independence of the parallel loop (C18)
-/

namespace Verif.Props

open Verif

/-- `fit` on objects with equal parameters: same outcome, same labels and index lists. -/
theorem fit_same_params {a a' : AbsObj} (hp : a.params = a'.params) (data : List Hit) {r : AbsObj}
    (h : a.fit data = .ok r) : ∃ r', a'.fit data = .ok r' ∧ r'.labels = r.labels ∧ r'.indices = r.indices ∧
      r'.params = r.params ∧ r'.method = a'.method ∧ r.method = a.method := by
  unfold AbsObj.fit AbsObj.fitWith at h ⊢
  simp only [AbsObj.resized, List.take_zero, List.nil_append, hp] at h ⊢
  revert h
  generalize fitLoop a'.params 0 data _ = F
  cases F with
  | ok st =>
    simp only [bind, Res.bind]
    cases indexLoop 0 st.labels (List.replicate (st.maxLabel + 1).toNat []) with
    | ok idx =>
      simp only [Res.ok.injEq]
      rintro rfl
      exact ⟨_, rfl, rfl, rfl, rfl, rfl, rfl⟩
    | throws e => simp
    | ub u => simp
  | throws e => simp [bind, Res.bind]
  | ub u => simp [bind, Res.bind]

theorem getEvents_congr {solve : List GaussRow → F64 × F64} {a b : AbsObj} (h1 : a.params = b.params) (h2 : a.method = b.method)
    (h3 : a.labels = b.labels) (h4 : a.indices = b.indices) (data : List Hit) :
    a.getEvents solve data = b.getEvents solve data := by
  cases a; cases b
  simp only at h1 h2 h3 h4
  subst h1 h2 h3 h4
  rfl

/-- How far the current iteration has come: `b0` is the batch before it, `b` the batch now. -/
def Progress (c : ProcCtx) (ph : Phase) (alg : AbsObj) (b0 b : EventBatch) : Prop :=
  alg.params = c.params ∧
  match ph with
  | .extract => b = b0
  | .reset => ∃ x, extractHits c.mode c.chunk b0.batch = .ok x ∧ b = ⟨x, b0.neutrons⟩
  | .setMethod => ∃ x, extractHits c.mode c.chunk b0.batch = .ok x ∧ b = ⟨x, b0.neutrons⟩
  | .fit => (∃ x, extractHits c.mode c.chunk b0.batch = .ok x ∧ b = ⟨x, b0.neutrons⟩) ∧ alg.method = "centroid"
  | .getEvents => ∃ x, extractHits c.mode c.chunk b0.batch = .ok x ∧ b = ⟨x, b0.neutrons⟩ ∧
      ∃ a, (AbsObj.new c.params).fit x.hits = .ok a ∧ a.labels = alg.labels ∧ a.indices = alg.indices ∧
        a.params = alg.params ∧ a.method = alg.method

/-- One statement makes progress; the last one completes the batch. -/
theorem stmt_progress (c : ProcCtx) (ph : Phase) (alg : AbsObj) (b0 b b' : EventBatch) (alg' : AbsObj)
    (next : Option Phase) (hp : Progress c ph alg b0 b) (h : c.stmt ph alg b = .ok (b', alg', next)) :
    alg'.params = c.params ∧
    match next with
    | some ph' => Progress c ph' alg' b0 b'
    | none => c.one b0 = .ok b' := by
  obtain ⟨hpar, hp⟩ := hp
  cases ph with
  | extract =>
    simp only [ProcCtx.stmt, bind, Res.bind] at h
    simp only at hp
    subst hp
    cases hx : extractHits c.mode c.chunk b.batch with
    | ok x =>
      rw [hx] at h
      simp only [Res.ok.injEq, Prod.mk.injEq] at h
      obtain ⟨rfl, rfl, rfl⟩ := h
      exact ⟨hpar, hpar, x, hx, rfl⟩
    | throws e => rw [hx] at h; simp at h
    | ub u => rw [hx] at h; simp at h
  | reset =>
    simp only [ProcCtx.stmt, Res.ok.injEq, Prod.mk.injEq] at h
    obtain ⟨rfl, rfl, rfl⟩ := h
    exact ⟨hpar, hpar, hp⟩
  | setMethod =>
    simp only [ProcCtx.stmt, Res.ok.injEq, Prod.mk.injEq] at h
    obtain ⟨rfl, rfl, rfl⟩ := h
    exact ⟨hpar, hpar, hp, rfl⟩
  | fit =>
    obtain ⟨⟨x, hx, rfl⟩, hm⟩ := hp
    simp only [ProcCtx.stmt, bind, Res.bind] at h
    cases hf : alg.fit x.hits with
    | ok a =>
      rw [hf] at h
      simp only [Res.ok.injEq, Prod.mk.injEq] at h
      obtain ⟨rfl, rfl, rfl⟩ := h
      obtain ⟨a', e1, e2, e3, e4, e5, e6⟩ := fit_same_params (a' := AbsObj.new c.params) (by rw [hpar]; rfl) x.hits hf
      have hpa : a.params = c.params := by
        rw [← e4]
        exact (fit_inv e1).choose_spec.choose_spec.choose_spec.2.1
      refine ⟨hpa, hpa, x, hx, rfl, a', e1, e2, e3, e4, ?_⟩
      rw [e5, e6, hm]
      rfl
    | throws e => rw [hf] at h; simp at h
    | ub u => rw [hf] at h; simp at h
  | getEvents =>
    obtain ⟨x, hx, rfl, a, e1, e2, e3, e4, e5⟩ := hp
    simp only [ProcCtx.stmt, bind, Res.bind] at h
    cases hg : alg.getEvents c.solve x.hits with
    | ok es =>
      rw [hg] at h
      simp only [Res.ok.injEq, Prod.mk.injEq] at h
      obtain ⟨rfl, rfl, rfl⟩ := h
      refine ⟨hpar, ?_⟩
      simp only [ProcCtx.one, bind, Res.bind, hx, e1]
      rw [getEvents_congr e4 e5 e2 e3, hg]
    | throws e => rw [hg] at h; simp at h
    | ub u => rw [hg] at h; simp at h

/-- The indices still to do, over all workers. -/
def pending (ws : List Worker) : List Nat := (ws.map Worker.todo).flatten

/-- Invariant of the loop, `init` being the batches at its start. -/
structure ParInv (c : ProcCtx) (init : List EventBatch) (s : ParState) : Prop where
  len : s.batches.length = init.length
  nodup : (pending s.workers).Nodup
  inRange : ∀ i ∈ pending s.workers, i < init.length
  current : ∀ w ∈ s.workers, ∀ i rest, w.todo = i :: rest → ∀ b0 b, init[i]? = some b0 → s.batches[i]? = some b →
    Progress c w.phase w.alg b0 b
  waiting : ∀ w ∈ s.workers, ∀ i ∈ w.todo.tail, s.batches[i]? = init[i]?
  idle : ∀ w ∈ s.workers, w.todo = [] ∨ w.alg.params = c.params
  finished : ∀ i, i ∉ pending s.workers → ∀ b0 b, init[i]? = some b0 → s.batches[i]? = some b → c.one b0 = .ok b

theorem mem_pending {ws : List Worker} {w : Worker} {i : Nat} (hw : w ∈ ws) (hi : i ∈ w.todo) : i ∈ pending ws :=
  List.mem_flatten.mpr ⟨w.todo, List.mem_map.mpr ⟨w, hw, rfl⟩, hi⟩

theorem pending_split {ws : List Worker} {j : Nat} {w : Worker} (h : ws[j]? = some w) :
    ∃ l r, ws = l ++ w :: r ∧ l.length = j := by
  obtain ⟨hj, e⟩ := List.getElem?_eq_some_iff.mp h
  refine ⟨ws.take j, ws.drop (j + 1), ?_, by rw [List.length_take]; omega⟩
  rw [← e]; simp

/-- The same index is never with two workers. -/
theorem pending_disjoint {l r : List Worker} {w w' : Worker} (hn : (pending (l ++ w :: r)).Nodup) (hw' : w' ∈ l ++ r)
    {i : Nat} (hi : i ∈ w.todo) : i ∉ w'.todo := by
  unfold pending at hn
  rw [List.map_append, List.map_cons, List.flatten_append, List.flatten_cons] at hn
  intro hi'
  rcases List.mem_append.mp hw' with h | h
  · have h1 : i ∈ (l.map Worker.todo).flatten := mem_pending h hi'
    exact (List.nodup_append.mp hn).2.2 i h1 i (List.mem_append_left _ hi) rfl
  · have h1 : i ∈ (r.map Worker.todo).flatten := mem_pending h hi'
    exact (List.nodup_append.mp (List.nodup_append.mp hn).2.1).2.2 i hi i h1 rfl

theorem parInv_step {c : ProcCtx} {init : List EventBatch} {s s' : ParState} (inv : ParInv c init s)
    (h : c.Step s s') : ParInv c init s' := by
  obtain ⟨j, w, i, rest, b, b', alg', next, hw, htodo, hb, hstmt, hbs, hws⟩ := h
  obtain ⟨l, r, hsplit, hlen⟩ := pending_split hw
  obtain ⟨hbi, _⟩ := List.getElem?_eq_some_iff.mp hb
  have hwm : w ∈ s.workers := List.mem_of_getElem? hw
  have hii : i < init.length := by rw [← inv.len]; exact hbi
  obtain ⟨b0, hb0⟩ : ∃ b0, init[i]? = some b0 := ⟨_, List.getElem?_eq_some_iff.mpr ⟨hii, rfl⟩⟩
  have hprog := inv.current w hwm i rest htodo b0 b hb0 hb
  have hnew := stmt_progress c w.phase w.alg b0 b b' alg' next hprog hstmt
  obtain ⟨w', hw'⟩ : ∃ w', w' = Worker.after i rest alg' next := ⟨_, rfl⟩
  have hws' : s'.workers = l ++ w' :: r := by
    rw [hws, ← hw', hsplit, ← hlen, List.set_append_right _ _ (Nat.le_refl _), Nat.sub_self, List.set_cons_zero]
  have hget : ∀ k, k ≠ i → s'.batches[k]? = s.batches[k]? := by
    intro k hk
    rw [hbs, List.getElem?_set_ne (Ne.symm hk)]
  have hgeti : s'.batches[i]? = some b' := by rw [hbs, List.getElem?_set_self hbi]
  have hnd := inv.nodup
  rw [hsplit] at hnd
  have htodo' : w'.todo = i :: rest ∨ (w'.todo = rest ∧ next = none) := by
    rw [hw']; cases next with
    | some ph => left; rfl
    | none => right; exact ⟨rfl, rfl⟩
  have hsub : (pending s'.workers).Sublist (pending s.workers) := by
    rw [hws', hsplit]
    unfold pending
    rw [List.map_append, List.map_append, List.map_cons, List.map_cons, List.flatten_append, List.flatten_append,
      List.flatten_cons, List.flatten_cons]
    refine List.Sublist.append (List.Sublist.refl _) (List.Sublist.append ?_ (List.Sublist.refl _))
    rw [htodo]
    rcases htodo' with h | ⟨h, _⟩ <;> rw [h]
    exact List.sublist_cons_self _ _
  have hother : ∀ w2 ∈ l ++ r, i ∉ w2.todo := fun w2 hw2 => pending_disjoint hnd hw2 (by rw [htodo]; simp)
  have hirest : i ∉ rest := by
    have : (w.todo).Nodup := by
      unfold pending at hnd
      rw [List.map_append, List.map_cons, List.flatten_append, List.flatten_cons] at hnd
      exact (List.nodup_append.mp (List.nodup_append.mp hnd).2.1).1
    rw [htodo] at this
    exact (List.nodup_cons.mp this).1
  have hmem' : ∀ w2, w2 ∈ s'.workers ↔ w2 = w' ∨ w2 ∈ l ++ r := by
    intro w2
    rw [hws']
    simp only [List.mem_append, List.mem_cons]
    tauto
  have hlr : ∀ w2 ∈ l ++ r, w2 ∈ s.workers := by
    intro w2 h2
    rw [hsplit]
    rcases List.mem_append.mp h2 with h | h <;> simp [h]
  constructor
  case len => rw [hbs, List.length_set]; exact inv.len
  case nodup => exact hsub.nodup inv.nodup
  case inRange => exact fun k hk => inv.inRange k (hsub.subset hk)
  case current =>
    intro w2 hw2 k rest2 hk c0 cb hc0 hcb
    rcases (hmem' w2).mp hw2 with rfl | h2
    · rcases htodo' with h | ⟨h, hnone⟩
      · rw [h] at hk
        injection hk with e1 e2
        subst e1 e2
        rw [hgeti] at hcb
        rw [hb0] at hc0
        injection hcb with hcb
        injection hc0 with hc0
        subst hcb hc0
        cases next with
        | none =>
          rw [hw'] at h
          simp only [Worker.after] at h
          exact absurd (h ▸ List.mem_cons_self) hirest
        | some ph =>
          rw [hw']
          exact hnew.2
      · rw [h] at hk
        have hki : k ≠ i := by
          rintro rfl
          exact hirest (by rw [hk]; simp)
        rw [hget k hki] at hcb
        have hwait := inv.waiting w hwm k (by rw [htodo]; simp [hk])
        rw [hwait, hc0] at hcb
        injection hcb with hcb
        rw [hw', hnone]
        exact ⟨hnew.1, hcb.symm⟩
    · have hki : k ≠ i := by
        rintro rfl
        exact hother w2 h2 (by rw [hk]; simp)
      rw [hget k hki] at hcb
      exact inv.current w2 (hlr w2 h2) k rest2 hk c0 cb hc0 hcb
  case waiting =>
    intro w2 hw2 k hk
    rcases (hmem' w2).mp hw2 with rfl | h2
    · have hkr : k ∈ rest := by
        rcases htodo' with h | ⟨h, _⟩
        · rw [h] at hk; exact hk
        · rw [h] at hk; exact List.mem_of_mem_tail hk
      rw [hget k (by rintro rfl; exact hirest hkr)]
      exact inv.waiting w hwm k (by rw [htodo]; exact hkr)
    · rw [hget k (by rintro rfl; exact hother w2 h2 (List.mem_of_mem_tail hk))]
      exact inv.waiting w2 (hlr w2 h2) k hk
  case idle =>
    intro w2 hw2
    rcases (hmem' w2).mp hw2 with rfl | h2
    · right
      rw [hw']
      cases next <;> exact hnew.1
    · exact inv.idle w2 (hlr w2 h2)
  case finished =>
    intro k hk c0 cb hc0 hcb
    by_cases hki : k = i
    · subst hki
      rw [hgeti] at hcb
      rw [hb0] at hc0
      injection hcb with hcb
      injection hc0 with hc0
      subst hcb hc0
      cases next with
      | none => exact hnew.2
      | some ph =>
        exfalso
        apply hk
        refine mem_pending (w := w') ((hmem' _).mpr (Or.inl rfl)) ?_
        rw [hw']; simp [Worker.after]
    · rw [hget k hki] at hcb
      refine inv.finished k ?_ c0 cb hc0 hcb
      intro hkp
      apply hk
      rw [hsplit] at hkp
      unfold pending at hkp ⊢
      rw [hws']
      rw [List.map_append, List.map_cons, List.flatten_append, List.flatten_cons, List.mem_append, List.mem_append] at hkp ⊢
      rcases hkp with h | h | h
      · exact Or.inl h
      · right; left
        rw [htodo] at h
        have hkr : k ∈ rest := by
          rcases List.mem_cons.mp h with h | h
          · exact absurd h hki
          · exact h
        rcases htodo' with h' | ⟨h', _⟩ <;> rw [h'] <;> simp [hkr]
      · exact Or.inr (Or.inr h)

/-- The ranges handed out by the scheduler partition the batches. -/
def IsPartition (ranges : List (List Nat)) (n : Nat) : Prop := ranges.flatten.Perm (List.range n)

/-- The state when the loop starts. -/
def parStart (c : ProcCtx) (init : List EventBatch) (ranges : List (List Nat)) : ParState := ⟨init, ranges.map c.spawn⟩

theorem parInv_start (c : ProcCtx) (init : List EventBatch) (ranges : List (List Nat))
    (hp : IsPartition ranges init.length) : ParInv c init (parStart c init ranges) := by
  have hpend : pending (parStart c init ranges).workers = ranges.flatten := by
    unfold pending parStart
    rw [List.map_map]
    congr 1
    conv_rhs => rw [← List.map_id ranges]
    rfl
  constructor
  case len => rfl
  case nodup => rw [hpend]; exact hp.nodup_iff.mpr List.nodup_range
  case inRange =>
    intro i hi
    rw [hpend] at hi
    exact List.mem_range.mp (hp.mem_iff.mp hi)
  case current =>
    intro w hw i rest hi b0 b hb0 hb
    obtain ⟨rg, _, rfl⟩ := List.mem_map.mp hw
    have : b0 = b := by
      have h1 : init[i]? = some b := hb
      rw [hb0] at h1
      exact Option.some.inj h1
    exact ⟨rfl, this.symm⟩
  case waiting => intro w hw i hi; rfl
  case idle =>
    intro w hw
    obtain ⟨rg, _, rfl⟩ := List.mem_map.mp hw
    right; rfl
  case finished =>
    intro i hi b0 b hb0 hb
    exfalso
    apply hi
    rw [hpend]
    exact hp.mem_iff.mpr (List.mem_range.mpr (List.getElem?_eq_some_iff.mp hb0).1)

theorem parInv_reach {c : ProcCtx} {init : List EventBatch} {s s' : ParState} (inv : ParInv c init s)
    (h : c.Reach s s') : ParInv c init s' := by
  induction h with
  | refl => exact inv
  | step _ hs ih => exact parInv_step ih hs

/-- C18: whatever the ranges and the interleaving, when the loop has ended every batch is what processing it alone
with a new clustering object gives. -/
theorem c18_result (c : ProcCtx) (init : List EventBatch) (ranges : List (List Nat))
    (hp : IsPartition ranges init.length) (s : ParState) (hr : c.Reach (parStart c init ranges) s) (hd : s.done) :
    s.batches.length = init.length ∧
    ∀ (i : Nat) (b0 b : EventBatch), init[i]? = some b0 → s.batches[i]? = some b → c.one b0 = .ok b := by
  have inv := parInv_reach (parInv_start c init ranges hp) hr
  refine ⟨inv.len, fun i b0 b h0 h1 => inv.finished i ?_ b0 b h0 h1⟩
  intro hi
  obtain ⟨t, ht, hit⟩ := List.mem_flatten.mp hi
  obtain ⟨w, hw, rfl⟩ := List.mem_map.mp ht
  rw [hd w hw] at hit
  simp at hit

/-- C18: so two runs with different ranges and interleavings end with the same batches. -/
theorem c18_schedule_independent (c : ProcCtx) (init : List EventBatch) (ranges ranges' : List (List Nat))
    (hp : IsPartition ranges init.length) (hp' : IsPartition ranges' init.length) (s s' : ParState)
    (hr : c.Reach (parStart c init ranges) s) (hr' : c.Reach (parStart c init ranges') s') (hd : s.done) (hd' : s'.done) :
    s.batches = s'.batches := by
  obtain ⟨l1, r1⟩ := c18_result c init ranges hp s hr hd
  obtain ⟨l2, r2⟩ := c18_result c init ranges' hp' s' hr' hd'
  apply List.ext_getElem (by omega)
  intro i h1 h2
  have e1 := r1 i _ _ (List.getElem?_eq_getElem (by omega)) (List.getElem?_eq_getElem h1)
  have e2 := r2 i _ _ (List.getElem?_eq_getElem (by omega)) (List.getElem?_eq_getElem h2)
  rw [e1] at e2
  exact Res.ok.inj e2

/-- A statement that comes next in a batch whose sequential processing succeeds does not fail. -/
theorem stmt_defined (c : ProcCtx) (ph : Phase) (alg : AbsObj) (b0 b r : EventBatch) (hp : Progress c ph alg b0 b)
    (h : c.one b0 = .ok r) : ∃ x, c.stmt ph alg b = .ok x := by
  obtain ⟨hpar, hp⟩ := hp
  simp only [ProcCtx.one, bind, Res.bind] at h
  cases hx : extractHits c.mode c.chunk b0.batch with
  | throws e => rw [hx] at h; simp at h
  | ub u => rw [hx] at h; simp at h
  | ok x =>
    rw [hx] at h
    simp only at h
    cases hf : (AbsObj.new c.params).fit x.hits with
    | throws e => rw [hf] at h; simp at h
    | ub u => rw [hf] at h; simp at h
    | ok a =>
      rw [hf] at h
      simp only at h
      cases hg : a.getEvents c.solve x.hits with
      | throws e => rw [hg] at h; simp at h
      | ub u => rw [hg] at h; simp at h
      | ok es =>
        cases ph with
        | extract =>
          simp only at hp
          subst hp
          simp only [ProcCtx.stmt, bind, Res.bind, hx]
          exact ⟨_, rfl⟩
        | reset => exact ⟨_, rfl⟩
        | setMethod => exact ⟨_, rfl⟩
        | fit =>
          obtain ⟨⟨x', hx', rfl⟩, hm⟩ := hp
          rw [hx] at hx'
          injection hx' with hx'
          subst hx'
          obtain ⟨a', e1, -⟩ := fit_same_params (a := AbsObj.new c.params) (a' := alg) (by rw [hpar]; rfl) x.hits hf
          simp only [ProcCtx.stmt, bind, Res.bind, e1]
          exact ⟨_, rfl⟩
        | getEvents =>
          obtain ⟨x', hx', rfl, a', e1, e2, e3, e4, e5⟩ := hp
          rw [hx] at hx'
          injection hx' with hx'
          subst hx'
          rw [hf] at e1
          injection e1 with e1
          subst e1
          simp only [ProcCtx.stmt, bind, Res.bind]
          rw [← getEvents_congr e4 e5 e2 e3, hg]
          exact ⟨_, rfl⟩

/-- C18: if processing each batch alone succeeds, no schedule can get stuck: in every reachable state every worker
that has work left can take its next step. -/
theorem c18_progress (c : ProcCtx) (init : List EventBatch) (ranges : List (List Nat))
    (hp : IsPartition ranges init.length) (hone : ∀ b ∈ init, ∃ r, c.one b = .ok r) (s : ParState)
    (hr : c.Reach (parStart c init ranges) s) (w : Worker) (hw : w ∈ s.workers) (ht : w.todo ≠ []) :
    ∃ s', c.Step s s' := by
  have inv := parInv_reach (parInv_start c init ranges hp) hr
  obtain ⟨i, rest, htodo⟩ := List.exists_cons_of_ne_nil ht
  obtain ⟨j, hj, hjw⟩ := List.getElem_of_mem hw
  have hi := inv.inRange i (mem_pending hw (by rw [htodo]; simp))
  have hb := List.getElem?_eq_getElem (show i < s.batches.length by rw [inv.len]; exact hi)
  have hb0 := List.getElem?_eq_getElem hi
  obtain ⟨r, hr'⟩ := hone _ (List.getElem_mem hi)
  obtain ⟨⟨b', alg', next⟩, hx⟩ := stmt_defined c w.phase w.alg _ _ r (inv.current w hw i rest htodo _ _ hb0 hb) hr'
  exact ⟨⟨_, _⟩, j, w, i, rest, _, b', alg', next, List.getElem?_eq_some_iff.mpr ⟨hj, hjw⟩, htodo, hb, hx, rfl, rfl⟩

/-- Statements left in an iteration. -/
def Phase.left : Phase → Nat
  | .extract => 5
  | .reset => 4
  | .setMethod => 3
  | .fit => 2
  | .getEvents => 1

/-- Statements a worker still has to execute. -/
def Worker.left (w : Worker) : Nat :=
  match w.todo with
  | [] => 0
  | _ :: rest => Phase.left w.phase + 5 * rest.length

/-- Statements still to execute, in total. -/
def leftOver (s : ParState) : Nat := (s.workers.map Worker.left).sum

theorem stmt_next (c : ProcCtx) (ph : Phase) (alg : AbsObj) (b b' : EventBatch) (alg' : AbsObj) (next : Option Phase)
    (h : c.stmt ph alg b = .ok (b', alg', next)) :
    Phase.left ph = 1 + match next with
      | some p => Phase.left p
      | none => 0 := by
  cases ph with
  | extract =>
    simp only [ProcCtx.stmt, bind, Res.bind] at h
    cases hx : extractHits c.mode c.chunk b.batch <;> rw [hx] at h <;> simp at h
    obtain ⟨_, _, rfl⟩ := h
    rfl
  | reset => simp only [ProcCtx.stmt, Res.ok.injEq, Prod.mk.injEq] at h; obtain ⟨_, _, rfl⟩ := h; rfl
  | setMethod => simp only [ProcCtx.stmt, Res.ok.injEq, Prod.mk.injEq] at h; obtain ⟨_, _, rfl⟩ := h; rfl
  | fit =>
    simp only [ProcCtx.stmt, bind, Res.bind] at h
    cases hx : alg.fit b.batch.hits <;> rw [hx] at h <;> simp at h
    obtain ⟨_, _, rfl⟩ := h
    rfl
  | getEvents =>
    simp only [ProcCtx.stmt, bind, Res.bind] at h
    cases hx : alg.getEvents c.solve b.batch.hits <;> rw [hx] at h <;> simp at h
    obtain ⟨_, _, rfl⟩ := h
    rfl

/-- C18: every step reduces the number of statements left by one, so every schedule ends. -/
theorem c18_terminates (c : ProcCtx) (s s' : ParState) (h : c.Step s s') : leftOver s' + 1 = leftOver s := by
  obtain ⟨j, w, i, rest, b, b', alg', next, hw, htodo, hb, hstmt, hbs, hws⟩ := h
  obtain ⟨l, r, hsplit, hlen⟩ := pending_split hw
  have hn := stmt_next c w.phase w.alg b b' alg' next hstmt
  unfold leftOver
  rw [hws, hsplit, ← hlen, List.set_append_right _ _ (Nat.le_refl _), Nat.sub_self, List.set_cons_zero]
  simp only [List.map_append, List.map_cons, List.sum_append, List.sum_cons]
  have hwl : Worker.left w = Phase.left w.phase + 5 * rest.length := by unfold Worker.left; rw [htodo]
  have hnew : Worker.left (Worker.after i rest alg' next) + 1 = Worker.left w := by
    rw [hwl, hn]
    cases next with
    | some ph => simp only [Worker.left, Worker.after]; omega
    | none =>
      unfold Worker.left Worker.after
      cases rest with
      | nil => simp
      | cons k rest => simp [Phase.left]; omega
  omega

theorem reach_trans {c : ProcCtx} {s s' s'' : ParState} (h : c.Step s s') (hr : c.Reach s' s'') : c.Reach s s'' := by
  induction hr with
  | refl => exact .step (.refl _) h
  | step _ hs ih => exact .step ih hs

theorem reach_reach {c : ProcCtx} {s s' s'' : ParState} (h : c.Reach s s') (hr : c.Reach s' s'') : c.Reach s s'' := by
  induction hr with
  | refl => exact h
  | step _ hs ih => exact .step ih hs

/-- C18: and so, if processing each batch alone succeeds, the loop can be completed from wherever a schedule has
brought it. -/
theorem c18_completes (c : ProcCtx) (init : List EventBatch) (ranges : List (List Nat))
    (hp : IsPartition ranges init.length) (hone : ∀ b ∈ init, ∃ r, c.one b = .ok r) (s : ParState)
    (hr : c.Reach (parStart c init ranges) s) : ∃ s', c.Reach s s' ∧ s'.done := by
  obtain ⟨n, hn⟩ : ∃ n, n = leftOver s := ⟨_, rfl⟩
  induction n generalizing s with
  | zero =>
    by_cases hd : s.done
    · exact ⟨s, .refl s, hd⟩
    · unfold ParState.done at hd
      push Not at hd
      obtain ⟨w, hw, ht⟩ := hd
      obtain ⟨s', hs'⟩ := c18_progress c init ranges hp hone s hr w hw ht
      have := c18_terminates c s s' hs'
      omega
  | succ n ih =>
    by_cases hd : s.done
    · exact ⟨s, .refl s, hd⟩
    · unfold ParState.done at hd
      push Not at hd
      obtain ⟨w, hw, ht⟩ := hd
      obtain ⟨s', hs'⟩ := c18_progress c init ranges hp hone s hr w hw ht
      have := c18_terminates c s s' hs'
      obtain ⟨t, h1, h2⟩ := ih s' (.step hr hs') (by omega)
      exact ⟨t, reach_trans hs' h1, h2⟩

/-- C18: no two workers are ever at the same batch. -/
theorem c18_no_sharing (c : ProcCtx) (init : List EventBatch) (ranges : List (List Nat))
    (hp : IsPartition ranges init.length) (s : ParState) (hr : c.Reach (parStart c init ranges) s)
    (j j' : Nat) (w w' : Worker) (hj : s.workers[j]? = some w) (hj' : s.workers[j']? = some w') (hne : j ≠ j')
    (i : Nat) (hi : w.todo.head? = some i) : w'.todo.head? ≠ some i := by
  have inv := parInv_reach (parInv_start c init ranges hp) hr
  obtain ⟨l, r, hsplit, hlen⟩ := pending_split hj
  have hnd := inv.nodup
  rw [hsplit] at hnd
  have hw' : w' ∈ l ++ r := by
    rw [hsplit] at hj'
    rcases Nat.lt_or_ge j' l.length with h | h
    · rw [List.getElem?_append_left h] at hj'
      exact List.mem_append_left _ (List.mem_of_getElem? hj')
    · rw [List.getElem?_append_right h] at hj'
      obtain ⟨k, hk⟩ : ∃ k, j' - l.length = k + 1 := ⟨j' - l.length - 1, by omega⟩
      rw [hk, List.getElem?_cons_succ] at hj'
      exact List.mem_append_right _ (List.mem_of_getElem? hj')
  intro hc
  exact pending_disjoint hnd hw' (List.mem_of_mem_head? hi) (List.mem_of_mem_head? hc)

/-- When processing one batch succeeds: extraction stays in the buffer and every hit has a time of flight and a
48-bit arrival time. -/
theorem one_returns (c : ProcCtx) (b : EventBatch) (x : Batch) (hx : extractHits c.mode c.chunk b.batch = .ok x)
    (hh : ∀ h ∈ x.hits, h.spidertime.toNat < 2 ^ 48 ∧ h.tof ≠ none) : ∃ r, c.one b = .ok r := by
  obtain ⟨a, ha⟩ := c24_fit_returns (AbsObj.new c.params) x.hits fun h hm => by have := (hh h hm).1; omega
  have hc := fit_consistent ha
  have hlen := (c24_labels _ a _ ha).1
  have hm : a.method = "centroid" := by
    obtain ⟨a', e1, -, -, -, e5, -⟩ := fit_same_params (a' := AbsObj.new c.params) rfl x.hits ha
    rw [ha] at e1
    injection e1 with e1
    subst e1
    exact e5
  simp only [ProcCtx.one, bind, Res.bind, hx, ha]
  rcases getEvents_cases (solve := c.solve) hc x.hits with ⟨h1, -⟩ | ⟨-, -, h3, -⟩ | ⟨-, -, h3⟩ | ⟨-, -, -, h3⟩
  · exact absurd hlen h1
  · exact absurd hm h3
  · rw [h3]; exact ⟨_, rfl⟩
  · rcases h3 with ⟨r, h3⟩ | ⟨-, g, hg, hn⟩
    · rw [h3]; exact ⟨_, rfl⟩
    · exact absurd hn (hh g hg).2

/-- Two batches split into two ranges, one of them with a hit: processing each alone succeeds. -/
example : ∃ c : ProcCtx, ∃ init : List EventBatch, IsPartition [[1], [0]] init.length ∧
    ∀ b ∈ init, ∃ r, c.one b = .ok r := by
  refine ⟨⟨.tdc, [0x0010000000585054#64, 0x6F00000000005000#64, 0xB123400000000009#64].flatMap bytesOf,
    ⟨.fin 5, 1, 75⟩, fun _ => (.fin 0, .fin 0)⟩, [⟨Batch.new 0 2 0, []⟩, ⟨Batch.new 0 1 0, []⟩], ?_, ?_⟩
  · unfold IsPartition; decide
  · intro b hb
    simp only [List.mem_cons, List.not_mem_nil, or_false] at hb
    rcases hb with rfl | rfl
    · exact one_returns _ _ _ rfl (by decide)
    · exact one_returns _ _ _ rfl (by decide)

end Verif.Props
