import Verif.Spec.AbsCalls
import Verif.Props.Abs

/-!
# C30, continued: the state of a clustering object after any calls
-/

namespace Verif.Props

open Verif Verif.Spec

theorem fit_method {o o' : AbsObj} {d : List Hit} (h : o.fit d = .ok o') : o'.method = o.method := by
  unfold AbsObj.fit AbsObj.fitWith at h
  simp only [bind] at h
  generalize fitLoop _ 0 d _ = F at h
  cases F with
  | ok st =>
    simp only [Res.bind] at h
    generalize indexLoop 0 st.labels _ = I at h
    cases I with
    | ok x => simp only [Res.ok.injEq] at h; rw [← h]
    | throws e => cases h
    | ub u => cases h
  | throws e => cases h
  | ub u => cases h

theorem calls_snoc (solve : List GaussRow → F64 × F64) (o o' : AbsObj) (cs : List AbsObj.Call) (c : AbsObj.Call)
    (h : o.calls solve (cs ++ [c]) = .ok o') : ∃ o1, o.calls solve cs = .ok o1 ∧ o1.call solve c = .ok o' := by
  induction cs generalizing o with
  | nil =>
    simp only [List.nil_append, AbsObj.calls, bind, Res.bind] at h
    refine ⟨o, rfl, ?_⟩
    cases hc : o.call solve c <;> rw [hc] at h <;> simp_all
  | cons d cs ih =>
    simp only [List.cons_append, AbsObj.calls, bind, Res.bind] at h ⊢
    cases hd : o.call solve d with
    | ok o2 => rw [hd] at h; exact ih o2 h
    | throws e => rw [hd] at h; cases h
    | ub u => rw [hd] at h; cases h

theorem lastFit_snoc (cs : List AbsObj.Call) (c : AbsObj.Call) : lastFit (cs ++ [c]) = match c with
    | .fit d => some d | .reset => none | _ => lastFit cs := by
  unfold lastFit
  rw [List.filterMap_append]
  cases c <;> simp

theorem lastMethod_snoc (cs : List AbsObj.Call) (c : AbsObj.Call) : lastMethod (cs ++ [c]) = match c with
    | .setMethod m => m | _ => lastMethod cs := by
  unfold lastMethod
  rw [List.filterMap_append]
  cases c <;> simp

/-- C30: after any calls that end without undefined behaviour or exception from `fit`, the method is the one named last, and the
labels and index lists are those of the hits clustered last (no labels after `reset`). -/
theorem c30_state (solve : List GaussRow → F64 × F64) (p : AbsParams) (cs : List AbsObj.Call) (o : AbsObj)
    (h : (AbsObj.new p).calls solve cs = .ok o) :
    o.params = p ∧ o.method = lastMethod cs ∧ (lastFit cs = none → o.labels = []) ∧
      ∀ d, lastFit cs = some d → ∃ o1, (AbsObj.new p).fit d = .ok o1 ∧ o.labels = o1.labels ∧ o.indices = o1.indices := by
  induction cs using List.reverseRecOn generalizing o with
  | nil =>
    simp only [AbsObj.calls, Res.ok.injEq] at h
    subst h
    exact ⟨rfl, rfl, fun _ => rfl, fun d hd => by simp [lastFit] at hd⟩
  | append_singleton cs c ih =>
    obtain ⟨o1, h1, h2⟩ := calls_snoc solve _ o cs c h
    obtain ⟨i1, i2, i3, i4⟩ := ih o1 h1
    refine ⟨calls_params h, ?_⟩
    rw [lastMethod_snoc, lastFit_snoc]
    cases c with
    | fit d =>
      change o1.fit d = .ok o at h2
      refine ⟨(fit_method h2).trans i2, by simp, ?_⟩
      intro d' hd'
      simp only [Option.some.injEq] at hd'
      subst hd'
      have := c27_history_independent solve p cs o1 h1 d
      rw [h2] at this
      cases hf : (AbsObj.new p).fit d with
      | ok o2 =>
        rw [hf] at this
        simp only [Res.bind, Res.ok.injEq, Prod.mk.injEq] at this
        exact ⟨o2, rfl, this.1, this.2⟩
      | throws e => rw [hf] at this; cases this
      | ub u => rw [hf] at this; cases this
    | reset =>
      simp only [AbsObj.call, Res.ok.injEq] at h2
      subst h2
      exact ⟨i2, fun _ => rfl, by simp⟩
    | setMethod m =>
      simp only [AbsObj.call, Res.ok.injEq] at h2
      subst h2
      exact ⟨rfl, i3, i4⟩
    | getEvents d =>
      have : o = o1 := by
        simp only [AbsObj.call] at h2
        cases hg : o1.getEvents solve d <;> rw [hg] at h2 <;> simp at h2 <;> exact h2.symm
      subst this
      exact ⟨i2, i3, i4⟩

/-- Two fits, a reset between them, and two methods. -/
example : ∃ o, (AbsObj.new ⟨.fin 5, 1, 75⟩).calls (fun _ => (.fin 0, .fin 0))
    [.fit [⟨1, 2, 3, 4, 5, some 6, 7⟩], .setMethod "gaussian", .reset, .fit [⟨1, 2, 3, 4, 5, some 6, 7⟩, ⟨100, 2, 3, 4, 5, some 6, 7⟩],
      .setMethod "fast_gaussian"] = .ok o ∧ o.method = "fast_gaussian" ∧ o.labels = [0, 1] := by
  exact ⟨⟨⟨.fin 5, 1, 75⟩, "fast_gaussian", [0, 1], [[0], [1], [], [], [], [], [], [], []]⟩, by decide +kernel, rfl, rfl⟩

end Verif.Props
