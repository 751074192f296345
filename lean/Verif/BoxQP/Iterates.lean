import Verif.BoxQP.Separable

/-!
# C07: the iterates of a run

`C07_objective_decreases` compares the result with the initial guess.  Here the iterates in between are read off the recorded trace.
-/

namespace Nmpc.BoxQP

open Matrix

variable {n : ℕ} {L : LLT ℝ} {c : Config ℝ} {a : Args n ℝ} {o : Obj n ℝ} {r : Result n ℝ}

/-- The points `xs 0, …, xs K` are the iterates of a run with the recorded trace: they start at the initial guess clipped to the box;
entry `k + 1` of the trace holds the point `xs k`, its objective, the search direction and the number of reductions of the step that
lead to `xs (k + 1)`; and unless the step was reduced below `min_step` the objective of `xs (k + 1)` is strictly smaller. -/
def Iterates (c : Config ℝ) (a : Args n ℝ) (tr : List (Trace n ℝ)) (K : ℕ) (xs : ℕ → Vec n ℝ) : Prop :=
  xs 0 = clampBox a.lower a.upper a.init ∧
  ∀ k < K, ∃ e, tr[k + 1]? = some e ∧ e.iter = k + 1 ∧ e.x = xs k ∧ e.obj = qp a.H a.g (xs k) ∧
    xs (k + 1) = clampBox a.lower a.upper (xs k + c.stepFactor ^ e.stepNum • e.searchDir) ∧
    (c.minStep ≤ c.stepFactor ^ e.stepNum → qp a.H a.g (xs (k + 1)) < qp a.H a.g (xs k))

theorem Iterates.append {trace : List (Trace n ℝ)} {K : ℕ} {xs : ℕ → Vec n ℝ} (h : Iterates c a trace K xs) (l : List (Trace n ℝ)) :
    Iterates c a (trace ++ l) K xs := by
  refine ⟨h.1, fun k hk => ?_⟩
  obtain ⟨e, he, h'⟩ := h.2 k hk
  exact ⟨e, by rw [List.getElem?_append_left (List.getElem?_eq_some_iff.1 he).1]; exact he, h'⟩

theorem Iterates.extend {trace : List (Trace n ℝ)} {K : ℕ} {xs : ℕ → Vec n ℝ} (h : Iterates c a trace K xs)
    (hl : trace.length = K + 1) {e : Trace n ℝ} {x' : Vec n ℝ} (hi : e.iter = K + 1) (hx : e.x = xs K) (ho : e.obj = qp a.H a.g (xs K))
    (hx' : x' = clampBox a.lower a.upper (xs K + c.stepFactor ^ e.stepNum • e.searchDir))
    (hd : c.minStep ≤ c.stepFactor ^ e.stepNum → qp a.H a.g x' < qp a.H a.g (xs K)) :
    ∃ ys : ℕ → Vec n ℝ, ys (K + 1) = x' ∧ Iterates c a (trace ++ [e]) (K + 1) ys := by
  refine ⟨Function.update xs (K + 1) x', by simp, by rw [Function.update_of_ne (by omega)]; exact h.1, fun k hk => ?_⟩
  rw [Function.update_of_ne (a := k) (by omega)]
  rcases Nat.lt_succ_iff_lt_or_eq.1 hk with hk | rfl
  · obtain ⟨e', h'⟩ := (h.append [e]).2 k hk
    rw [Function.update_of_ne (by omega)]
    exact ⟨e', h'⟩
  · refine ⟨e, by rw [List.getElem?_append_right (by omega), hl]; simp, hi, hx, ho, ?_⟩
    simpa using ⟨hx', hd⟩

/-- One accepted step in terms of the iterates. -/
theorem accepted_step (hL : L.Exact) (hH : a.H.PosDef) (hg : c.gradThre ≠ 0) (hf : 0 < c.stepFactor) (ha : 0 < c.armijo)
    {s : State n ℝ} (hs : Inv8 L a s) (hso : s.obj = qp a.H a.g s.x)
    (hok : refactorAt a s = true → L.ok (subMat a.H (freeAt a s) (freeAt a s)) = true)
    (hgr : ltb (freeGradNorm (gradient a s.x) (freeAt a s)) (c.gradThre * c.gradThre) = false)
    {d : Vec (freeAt a s).length ℝ}
    (hd : searchDirFree L a s.x (lltAt a s) (freeAt a s) (idxs (flagsAt a s)) = some d)
    {ls : LS n ℝ}
    (hl : lineSearch c a s.x (scatter (freeAt a s) d) s.obj
        (FOps.dot (scatter (freeAt a s) d) (gradient a s.x)) s.retval = some ls) :
    ls.xc = clampBox a.lower a.upper (s.x + c.stepFactor ^ ls.stepNum • scatter (freeAt a s) d) ∧
      ls.objc = qp a.H a.g ls.xc ∧
      (c.minStep ≤ c.stepFactor ^ ls.stepNum → qp a.H a.g ls.xc < qp a.H a.g s.x) := by
  obtain ⟨h1, h2, -⟩ := lineSearch_candidate hl
  rw [objective_eq] at h2
  refine ⟨?_, h2, fun hc => ?_⟩
  · rw [h1, (lineSearch_spec hl).1]
    rfl
  · rw [← h2, ← hso]
    exact step_decrease hL hH hg hf ha hs hok hgr hd hl hc

/-- **C07** The iterates of a run with a positive definite Hessian: every accepted step whose line search was not cut off by `min_step`
strictly decreases the objective.  There are `iter` accepted steps if the run ended by the iteration limit, otherwise `iter - 1`; the
last iterate is the result. -/
theorem C07_iterates (hL : L.Exact) (hH : a.H.PosDef) (hg : c.gradThre ≠ 0)
    (hf : 0 < c.stepFactor) (ha : 0 < c.armijo) (h : solve L c o a = .ok r) :
    ∃ (K : ℕ) (xs : ℕ → Vec n ℝ), (K = if r.obj.retval = 1 then r.iter else r.iter - 1) ∧ xs K = r.x ∧
      Iterates c a r.obj.trace K xs := by
  obtain ⟨s, hs, rfl⟩ := solve_rule (L := L) (c := c) (o := o)
    (fun s : State n ℝ => Inv8 L a s ∧ s.obj = qp a.H a.g s.x ∧ s.trace.length = s.iter ∧ 0 < s.iter ∧
      ∃ xs, xs (s.iter - 1) = s.x ∧ Iterates c a s.trace (s.iter - 1) xs)
    (fun s => ∃ (K : ℕ) (xs : ℕ → Vec n ℝ), (K = if s.retval = 1 then s.iter else s.iter - 1) ∧ xs K = s.x ∧
      Iterates c a s.trace K xs)
    ⟨inv8_init, objective_eq _ _ _, rfl, Nat.one_pos, fun _ => (initState a o).x, rfl, rfl, fun k hk => absurd hk (by simp [initState])⟩
    (fun s s' ⟨hs8, hso, hlen, hpos, xs, hx, hxs⟩ h => by
      refine ⟨inv8_step hs8 h, ?_⟩
      have := mainStep_out L c a s
      rw [h] at this
      cases this with
      | next hn hok hgr d hd hsd' ls hl hit tr htr htr' =>
        obtain ⟨h1, h2, h3⟩ := accepted_step hL hH hg hf ha hs8 hso hok hgr hd hl
        refine ⟨h2, by simp [hlen], Nat.succ_pos _, ?_⟩
        obtain ⟨ys, hy, hys⟩ := hxs.extend (e := tr) (x' := ls.xc) (by omega) (by omega) (by rw [htr'.1.1, hx])
          (by rw [htr'.2.1, hso, hx]) (by rw [hx, htr'.1.2, htr'.2.2]; exact h1) (by rw [htr'.2.2, hx]; exact h3)
        have he : s.iter - 1 + 1 = s.iter + 1 - 1 := by omega
        rw [he] at hy hys
        exact ⟨ys, hy, hys⟩)
    (fun s s' ⟨hs8, hso, hlen, hpos, xs, hx, hxs⟩ h => by
      have := mainStep_out L c a s
      rw [h] at this
      cases this with
      | maxIter hn hok hgr d hd hsd' ls hl hit tr htr htr' =>
        obtain ⟨h1, h2, h3⟩ := accepted_step hL hH hg hf ha hs8 hso hok hgr hd hl
        obtain ⟨ys, hy, hys⟩ := hxs.extend (e := tr) (x' := ls.xc) (by omega) (by omega) (by rw [htr'.1.1, hx])
          (by rw [htr'.2.1, hso, hx]) (by rw [hx, htr'.1.2, htr'.2.2]; exact h1) (by rw [htr'.2.2, hx]; exact h3)
        exact ⟨s.iter - 1 + 1, ys, by dsimp only; rw [if_pos rfl]; omega, hy, hys⟩
      | _ => exact ⟨s.iter - 1, xs, by simp, hx, hxs.append _⟩) h
  exact hs

/-- The first program of the unit test: the run starts at zero, ends at `(-1.5, -2)` and takes at least one accepted step. -/
example (hL : L.Exact) {o : Obj 2 ℝ} :
    ∃ r K xs, solve0 L Config.default o unitTestH ![1.5, 1] ![-10, -10] ![10, 10] = .ok r ∧ 0 < K ∧ xs 0 = 0 ∧ xs K = ![-1.5, -2] ∧
      Iterates Config.default ⟨unitTestH, ![1.5, 1], ![-10, -10], ![10, 10], fun _ => 0⟩ r.obj.trace K xs := by
  obtain ⟨r, h, hx, -⟩ := C91_unit_test hL (o := o) .p1
  have hP : unitTestH.PosDef := by
    rw [show unitTestH = Matrix.diagonal ![1, 0.5] by ext i j; fin_cases i <;> fin_cases j <;> rfl]
    exact diag_posDef fun i => by fin_cases i <;> norm_num
  obtain ⟨K, xs, -, hK, hxs⟩ := C07_iterates hL hP (by norm_num [Config.default]) (by norm_num [Config.default])
    (by norm_num [Config.default]) h
  have h0 : xs 0 = 0 := by
    rw [hxs.1]
    ext i
    fin_cases i <;> norm_num [clampBox, fmax_real, fmin_real]
  refine ⟨r, K, xs, h, Nat.pos_of_ne_zero fun hk => ?_, h0, hK.trans hx, hxs⟩
  subst hk
  have := congrFun (h0.symm.trans (hK.trans hx)) 0
  norm_num at this

end Nmpc.BoxQP
