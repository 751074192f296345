import Verif.BoxQP.Exact
import Mathlib.Topology.Algebra.Order.Archimedean
import Mathlib.Analysis.SpecificLimits.Basic
import Mathlib.Tactic.Positivity
import Mathlib.Tactic.NormNum

/-!
# BoxQP properties in exact arithmetic
-/

namespace Nmpc.BoxQP

open Matrix

variable {n : ℕ} {L : LLT ℝ} {c : Config ℝ} {a : Args n ℝ} {o : Obj n ℝ} {r : Result n ℝ}

theorem gradient_real (a : Args n ℝ) (x : Vec n ℝ) : gradient a x = a.g + a.H *ᵥ x := rfl

/-! ## C01 (real-number form) -/

/-- **C01** over the reals: with consistent limits the returned vector is in the box. -/
theorem C01_result_in_box_real (hlu : ∀ i, a.lower i ≤ a.upper i) (h : solve L c o a = .ok r) :
    InBox a.lower a.upper r.x := by
  intro i
  have := C01_result_in_box (by intro x; simp) h i
  simp only [ltb_real_false] at this
  exact ⟨this.1, this.2 (hlu i)⟩

theorem clampBox_inBox {l u : Vec n ℝ} (hlu : ∀ i, l i ≤ u i) (x : Vec n ℝ) : InBox l u (clampBox l u x) := by
  intro i
  have := clampBox_noViolation (by intro x; simp) l u x i
  simp only [ltb_real_false] at this
  exact ⟨this.1, this.2 (hlu i)⟩

/-! ## C03 (real-number form) -/

theorem stepSeq_eq (c : Config ℝ) (k : ℕ) : stepSeq c k = c.stepFactor ^ k := by
  induction k with
  | zero => rfl
  | succ k ih => rw [stepSeq, ih, pow_succ]

theorem step_eventually_small (hf : c.stepFactor < 1) (hm : 0 < c.minStep) :
    ∃ k, ltb (stepSeq c (k + 1)) c.minStep = true := by
  by_cases h0 : 0 ≤ c.stepFactor
  · obtain ⟨k, hk⟩ := exists_pow_lt_of_lt_one hm hf
    refine ⟨k, ?_⟩
    rw [ltb_real, stepSeq_eq]
    exact lt_of_le_of_lt (pow_le_pow_of_le_one h0 hf.le (by omega)) hk
  · refine ⟨0, ?_⟩
    rw [ltb_real, stepSeq_eq, zero_add, pow_one]
    linarith

/-- **C03** over the reals: `max_iter ≥ 1`, `step_factor < 1` and `min_step > 0` suffice for termination, for every
problem, guess and factorisation. -/
theorem C03_terminates_real (hmax : 1 ≤ c.maxIter) (hf : c.stepFactor < 1) (hm : 0 < c.minStep) :
    ∃ r, solve L c o a = .ok r ∧ (r.iter : ℤ) ≤ c.maxIter ∧
      r.obj.trace.length = r.iter + 1 ∧ r.obj.trace.map Trace.iter = List.range (r.iter + 1) := by
  obtain ⟨r, h1, h2⟩ := C03_terminates (L := L) (a := a) (o := o) hmax (step_eventually_small hf hm)
  have h3 := (C03_trace h1).2
  refine ⟨r, h1, h2, ?_, h3⟩
  simpa using congrArg List.length h3

/-- The default configuration satisfies the hypotheses of the termination theorem. -/
example : (1 : ℤ) ≤ (Config.default : Config ℝ).maxIter ∧ (Config.default : Config ℝ).stepFactor < 1 ∧
    0 < (Config.default : Config ℝ).minStep := by
  refine ⟨?_, ?_, ?_⟩ <;> norm_num [Config.default]

/-! ## C04, C05 -/

theorem flags_sign {x grad y : Vec n ℝ} {i : Fin n} (hy : InBox a.lower a.upper y)
    (h : clampedFlags a x grad i = true) : 0 ≤ grad i * (y i - x i) := by
  simp only [clampedFlags, Bool.or_eq_true, Bool.and_eq_true, eqb_real, ltb_real] at h
  rcases h with ⟨h1, h2⟩ | ⟨h1, h2⟩
  · exact mul_nonneg h2.le (by have := (hy i).1; linarith)
  · exact mul_nonneg_of_nonpos_of_nonpos h2.le (by have := (hy i).2; linarith)

/-- **C04** If all dimensions are clamped at return (code 6) and `H` is positive semidefinite, the result is a
global minimiser over the box. -/
theorem C04_all_clamped_optimal (hH : a.H.PosSemidef) (h : solve L c o a = .ok r)
    (h6 : r.obj.retval = 6) (y : Vec n ℝ) (hy : InBox a.lower a.upper y) :
    qp a.H a.g r.x ≤ qp a.H a.g y := by
  obtain ⟨s, hs, rfl⟩ := solve_rule (fun _ => True)
    (fun s => s.retval = 6 → ∀ i, clampedFlags a s.x (gradient a s.x) i = true) trivial
    (fun _ _ _ _ => trivial)
    (fun s s' _ h => by
      have := mainStep_out L c a s
      rw [h] at this
      cases this with
      | all hall => exact fun _ => hall
      | _ => intro h; exact absurd h (by simp)) h
  have hf := hs h6
  rw [posSemidef_iff] at hH
  rw [qp_expand' hH.1 a.g s.x y]
  have h1 : 0 ≤ (a.g + a.H *ᵥ s.x) ⬝ᵥ (y - s.x) :=
    Finset.sum_nonneg fun i _ => flags_sign hy (hf i)
  have h2 := hH.2 (y - s.x)
  show qp a.H a.g s.x ≤ _
  linarith

/-- **C05** If the small-gradient test ended the run (code 5) and `H` is positive semidefinite, the result is
optimal over the box up to `|grad_thre|` times the distance to the competitor. -/
theorem C05_small_gradient_optimal (hH : a.H.PosSemidef)
    (h : solve L c o a = .ok r) (h5 : r.obj.retval = 5) (y : Vec n ℝ) (hy : InBox a.lower a.upper y) :
    qp a.H a.g r.x ≤ qp a.H a.g y + |c.gradThre| * Real.sqrt ((y - r.x) ⬝ᵥ (y - r.x)) := by
  obtain ⟨s, hs, rfl⟩ := solve_rule (fun _ => True)
    (fun s => s.retval = 5 → freeGradNorm (gradient a s.x)
        (idxs fun i => !clampedFlags a s.x (gradient a s.x) i) < c.gradThre * c.gradThre) trivial
    (fun _ _ _ _ => trivial)
    (fun s s' _ h => by
      have := mainStep_out L c a s
      rw [h] at this
      cases this with
      | grad _ _ hlt => intro _; rw [ltb_real] at hlt; exact hlt
      | _ => intro h; exact absurd h (by simp)) h
  have hf := hs h5
  rw [freeGradNorm_eq] at hf
  rw [posSemidef_iff] at hH
  show qp a.H a.g s.x ≤ qp a.H a.g y + |c.gradThre| * Real.sqrt ((y - s.x) ⬝ᵥ (y - s.x))
  rw [qp_expand' hH.1 a.g s.x y]
  have h2 := hH.2 (y - s.x)
  set grad := gradient a s.x with hgrad
  change qp a.H a.g s.x ≤ qp a.H a.g s.x + grad ⬝ᵥ (y - s.x) + _ + _
  set v : Vec n ℝ := fun i => if !clampedFlags a s.x grad i then grad i else 0 with hv
  have hvv : v ⬝ᵥ v < c.gradThre * c.gradThre := by
    refine lt_of_eq_of_lt (Finset.sum_congr rfl fun i _ => ?_) hf
    simp only [hv]
    split <;> simp
  have h1 : v ⬝ᵥ (y - s.x) ≤ grad ⬝ᵥ (y - s.x) := by
    refine Finset.sum_le_sum fun i _ => ?_
    simp only [hv]
    cases hfl : clampedFlags a s.x grad i with
    | true => simpa using flags_sign hy hfl
    | false => simp
  have h3 : -(|c.gradThre| * Real.sqrt ((y - s.x) ⬝ᵥ (y - s.x))) ≤ v ⬝ᵥ (y - s.x) := by
    have h4 := dot_sq_le v (y - s.x)
    have h5 := dot_self_nonneg (y - s.x)
    have h6 : (v ⬝ᵥ (y - s.x)) ^ 2 ≤ (|c.gradThre| * Real.sqrt ((y - s.x) ⬝ᵥ (y - s.x))) ^ 2 := by
      rw [mul_pow, sq_abs, Real.sq_sqrt h5]
      refine h4.trans (mul_le_mul_of_nonneg_right ?_ h5)
      nlinarith
    exact (abs_le_of_sq_le_sq' h6 (mul_nonneg (abs_nonneg _) (Real.sqrt_nonneg _))).1
  linarith

/-! ## C06 -/

theorem step_searchDir {s : State n ℝ} (hs : Inv8 L a s)
    (hok : refactorAt a s = true → L.ok (subMat a.H (freeAt a s) (freeAt a s)) = true)
    {d : Vec (freeAt a s).length ℝ}
    (hd : searchDirFree L a s.x (lltAt a s) (freeAt a s) (idxs (flagsAt a s)) = some d) :
    scatter (freeAt a s) d = dirAt L a s := by
  rw [searchDirFree_coherent hs hok] at hd
  cases hd
  rfl

/-- **C06** With a positive definite Hessian `solve` reports neither a factorisation failure (-1) nor an ascent
direction (-2). -/
theorem C06_posDef_no_failure (hL : L.Exact) (hH : a.H.PosDef) (h : solve L c o a = .ok r) :
    r.obj.retval ≠ -1 ∧ r.obj.retval ≠ -2 := by
  obtain ⟨s, hs, rfl⟩ := solve_rule (Inv8 L a)
    (fun s => s.retval ≠ -1 ∧ s.retval ≠ -2) inv8_init
    (fun _ _ => inv8_step)
    (fun s s' hs h => by
      have := mainStep_out L c a s
      rw [h] at this
      cases this with
      | fail hn hr hok =>
        have hPD : (subMat a.H (freeAt a s) (freeAt a s)).PosDef := subMat_posDef hH _
        rw [← hL.ok_iff _ (posDef_iff.1 hPD).1] at hPD
        rw [hPD] at hok; cases hok
      | ascent hn hok hg d hd hlt =>
        rw [step_searchDir hs hok hd] at hlt
        have := (dir_slope hL hH s).1
        simp only [dot_real, ltb_real, lit_real] at hlt
        norm_num at hlt
        linarith
      | _ => simp) h
  exact hs

/-- **C06** Return code -1 implies that `H` is not positive definite. -/
theorem C06_failure_not_posDef (hL : L.Exact) (h : solve L c o a = .ok r)
    (h1 : r.obj.retval = -1) : ¬ a.H.PosDef := fun hH => (C06_posDef_no_failure hL hH h).1 h1

/-! ## C07 -/

/-- What the line search guarantees when it returns. -/
theorem lineSearch_spec {x dir : Vec n ℝ} {oldObj sdg : ℝ} {rv : ℤ} {ls : LS n ℝ}
    (h : lineSearch c a x dir oldObj sdg rv = some ls) :
    ls.step = c.stepFactor ^ ls.stepNum ∧
      (c.armijo ≤ (ls.objc - oldObj) / (ls.step * sdg) ∨ ls.step < c.minStep) := by
  refine loopM_invariant (fun s => s.step = c.stepFactor ^ s.stepNum)
    (fun s => s.step = c.stepFactor ^ s.stepNum ∧
      (c.armijo ≤ (s.objc - oldObj) / (s.step * sdg) ∨ s.step < c.minStep)) ?_ ?_ (by simp [lsInit]) h
  · intro s s' hs h
    unfold lsStep at h
    split at h
    · dsimp only at h
      split at h
      · cases h
      · cases h; show s.step * _ = _; rw [hs, pow_succ]
    · cases h
  · intro s s' hs h
    unfold lsStep at h
    split at h
    · dsimp only at h
      split at h
      · rename_i h1
        cases h
        refine ⟨?_, .inr (by simpa using h1)⟩
        show s.step * _ = _; rw [hs, pow_succ]
      · cases h
    · rename_i h1
      cases h
      exact ⟨hs, .inl (by simpa using h1)⟩

/-- **C07** One accepted step: if the line search was not cut off by `min_step`, the Armijo inequality holds for the new
iterate and the objective strictly decreases. -/
theorem step_decrease (hL : L.Exact) (hH : a.H.PosDef) (hg : c.gradThre ≠ 0)
    (hf : 0 < c.stepFactor) (ha : 0 < c.armijo) {s : State n ℝ} (hs : Inv8 L a s)
    (hok : refactorAt a s = true → L.ok (subMat a.H (freeAt a s) (freeAt a s)) = true)
    (hgr : ltb (freeGradNorm (gradient a s.x) (freeAt a s)) (c.gradThre * c.gradThre) = false)
    {d : Vec (freeAt a s).length ℝ}
    (hd : searchDirFree L a s.x (lltAt a s) (freeAt a s) (idxs (flagsAt a s)) = some d)
    {ls : LS n ℝ}
    (hl : lineSearch c a s.x (scatter (freeAt a s) d) s.obj
        (FOps.dot (scatter (freeAt a s) d) (gradient a s.x)) s.retval = some ls)
    (hcut : c.minStep ≤ c.stepFactor ^ ls.stepNum) : ls.objc < s.obj := by
  rw [step_searchDir hs hok hd] at hl
  obtain ⟨h1, h2⟩ := lineSearch_spec hl
  simp only [ltb_real_false] at hgr
  have hpos : 0 < freeGradNorm (gradient a s.x) (freeAt a s) :=
    lt_of_lt_of_le (mul_self_pos.2 hg) hgr
  have hsl := (dir_slope hL hH s).2 hpos
  rw [h1] at h2
  have hst : 0 < c.stepFactor ^ ls.stepNum := pow_pos hf _
  rcases h2 with h2 | h2
  · rw [dot_real] at h2
    have hden : c.stepFactor ^ ls.stepNum * (dirAt L a s ⬝ᵥ gradient a s.x) < 0 :=
      mul_neg_of_pos_of_neg hst hsl
    have h3 : 0 < (ls.objc - s.obj) / (c.stepFactor ^ ls.stepNum * (dirAt L a s ⬝ᵥ gradient a s.x)) :=
      lt_of_lt_of_le ha h2
    by_contra hcon
    have h4 : 0 ≤ ls.objc - s.obj := by linarith
    exact absurd h3 (not_lt.2 (div_nonpos_of_nonneg_of_nonpos h4 hden.le))
  · linarith

/-- **C07** If no line search of the run was cut off by `min_step` (visible in the recorded `step_num`s), the returned
point is at least as good as the clamped initial guess; moreover it is strictly better unless the very first
tests ended the run. -/
theorem C07_objective_decreases (hL : L.Exact) (hH : a.H.PosDef) (hg : c.gradThre ≠ 0)
    (hf : 0 < c.stepFactor) (ha : 0 < c.armijo) (h : solve L c o a = .ok r)
    (hcut : ∀ e ∈ r.obj.trace, c.minStep ≤ c.stepFactor ^ e.stepNum) :
    qp a.H a.g r.x ≤ qp a.H a.g (clampBox a.lower a.upper a.init) ∧
      (2 ≤ r.iter → qp a.H a.g r.x < qp a.H a.g (clampBox a.lower a.upper a.init)) := by
  set f0 := qp a.H a.g (clampBox a.lower a.upper a.init)
  obtain ⟨s, hs, rfl⟩ := solve_rule (L := L) (c := c) (o := o)
    (fun s : State n ℝ => Inv8 L a s ∧ s.obj = qp a.H a.g s.x ∧
      ((∀ e ∈ s.trace, c.minStep ≤ c.stepFactor ^ e.stepNum) → s.obj ≤ f0 ∧ (2 ≤ s.iter → s.obj < f0)))
    (fun s => s.obj = qp a.H a.g s.x ∧
      ((∀ e ∈ s.trace, c.minStep ≤ c.stepFactor ^ e.stepNum) → s.obj ≤ f0 ∧ (2 ≤ s.iter → s.obj < f0)))
    ⟨inv8_init, objective_eq _ _ _, fun _ => ⟨le_of_eq (objective_eq _ _ _), fun h => absurd h (by simp [initState])⟩⟩
    (fun s s' ⟨hs8, hso, hsd⟩ h => by
      refine ⟨inv8_step hs8 h, ?_⟩
      have := mainStep_out L c a s
      rw [h] at this
      cases this with
      | next hn hok hgr d hd hsd' ls hl hit tr htr htr' =>
        refine ⟨(lineSearch_candidate hl).2.1.trans (objective_eq _ _ _), fun hc => ?_⟩
        have h1 := hsd fun e he => hc e (List.mem_append_left _ he)
        have h2 := step_decrease hL hH hg hf ha hs8 hok hgr hd hl
          (by rw [← htr'.2.2]; exact hc tr (by simp))
        dsimp only
        exact ⟨by linarith [h1.1], fun _ => by linarith [h1.1]⟩)
    (fun s s' ⟨hs8, hso, hsd⟩ h => by
      have := mainStep_out L c a s
      rw [h] at this
      cases this with
      | maxIter hn hok hgr d hd hsd' ls hl hit tr htr htr' =>
        refine ⟨(lineSearch_candidate hl).2.1.trans (objective_eq _ _ _), fun hc => ?_⟩
        have h1 := hsd fun e he => hc e (List.mem_append_left _ he)
        have h2 := step_decrease hL hH hg hf ha hs8 hok hgr hd hl
          (by rw [← htr'.2.2]; exact hc tr (by simp))
        dsimp only
        exact ⟨by linarith [h1.1], fun _ => by linarith [h1.1]⟩
      | _ => exact ⟨hso, fun hc => hsd fun e he => hc e (List.mem_append_left _ he)⟩) h
  have := hs.2 hcut
  rw [hs.1] at this
  exact this

/-! ### Existence of an Armijo step -/

theorem clamp_scalar_eventually {l u x d : ℝ} (hx : l ≤ x ∧ x ≤ u) :
    ∀ᶠ t in nhdsWithin (0 : ℝ) (Set.Ioi 0), max (min (x + t * d) u) l =
      x + t * (if (x = l ∧ d < 0) ∨ (x = u ∧ 0 < d) then 0 else d) := by
  have hcont : Filter.Tendsto (fun t : ℝ => x + t * d) (nhdsWithin 0 (Set.Ioi 0)) (nhds x) := by
    have : Filter.Tendsto (fun t : ℝ => x + t * d) (nhds 0) (nhds (x + 0 * d)) := by
      apply Filter.Tendsto.const_add
      exact Filter.Tendsto.mul_const _ Filter.tendsto_id
    rw [zero_mul, add_zero] at this
    exact this.mono_left nhdsWithin_le_nhds
  have hpos : ∀ᶠ t in nhdsWithin (0 : ℝ) (Set.Ioi 0), 0 < t := self_mem_nhdsWithin
  by_cases hl : x = l ∧ d < 0
  · filter_upwards [hpos] with t ht
    rw [if_pos (.inl hl), mul_zero, add_zero]
    have h1 : t * d ≤ 0 := (mul_neg_of_pos_of_neg ht hl.2).le
    rw [min_eq_left (by linarith [hx.2]), max_eq_right (by linarith [hl.1]), hl.1]
  by_cases hu : x = u ∧ 0 < d
  · filter_upwards [hpos] with t ht
    rw [if_pos (.inr hu), mul_zero, add_zero]
    have h1 : 0 ≤ t * d := (mul_pos ht hu.2).le
    rw [min_eq_right (by linarith [hu.1]), max_eq_left (by linarith [hx.1, hu.1]), hu.1]
  rw [if_neg (by tauto)]
  have hlow : ∀ᶠ t in nhdsWithin (0 : ℝ) (Set.Ioi 0), l ≤ x + t * d := by
    by_cases h : x = l
    · have hd : 0 ≤ d := by by_contra h'; exact hl ⟨h, not_le.1 h'⟩
      filter_upwards [hpos] with t ht
      have := mul_nonneg ht.le hd
      linarith
    · have : l < x := lt_of_le_of_ne hx.1 (Ne.symm h)
      filter_upwards [hcont.eventually_const_lt this] with t ht using ht.le
  have hup : ∀ᶠ t in nhdsWithin (0 : ℝ) (Set.Ioi 0), x + t * d ≤ u := by
    by_cases h : x = u
    · have hd : d ≤ 0 := by by_contra h'; exact hu ⟨h, not_le.1 h'⟩
      filter_upwards [hpos] with t ht
      have := mul_nonpos_of_nonneg_of_nonpos ht.le hd
      linarith
    · have : x < u := lt_of_le_of_ne hx.2 h
      filter_upwards [hcont.eventually_lt_const this] with t ht using ht.le
  filter_upwards [hlow, hup] with t h1 h2
  rw [min_eq_left h2, max_eq_left h1]

/-- For a descent direction supported on the free indices, all sufficiently small steps satisfy the Armijo condition. -/
theorem armijo_eventually (hH : a.H.IsSymm) {x d : Vec n ℝ} (hx : InBox a.lower a.upper x)
    (hd : ∀ i, clampedFlags a x (gradient a x) i = true → d i = 0)
    (hs : d ⬝ᵥ gradient a x < 0) (ha : c.armijo < 1) :
    ∀ᶠ t in nhdsWithin (0 : ℝ) (Set.Ioi 0),
      c.armijo ≤ (objective a.H a.g (candidate a x d t) - qp a.H a.g x) / (t * (d ⬝ᵥ gradient a x)) := by
  classical
  set e : Vec n ℝ := fun i =>
    if (x i = a.lower i ∧ d i < 0) ∨ (x i = a.upper i ∧ 0 < d i) then 0 else d i with he
  have h1 : ∀ᶠ t in nhdsWithin (0 : ℝ) (Set.Ioi 0), candidate a x d t = x + t • e := by
    have : ∀ᶠ t in nhdsWithin (0 : ℝ) (Set.Ioi 0), ∀ i, candidate a x d t i = (x + t • e) i := by
      rw [Filter.eventually_all]
      intro i
      filter_upwards [clamp_scalar_eventually (d := d i) (hx i)] with t ht
      simp only [candidate, clampBox, fmax_real, fmin_real, smulv_real, Pi.add_apply, Pi.smul_apply,
        smul_eq_mul, he]
      exact ht
    filter_upwards [this] with t ht using funext ht
  have h2 : gradient a x ⬝ᵥ e ≤ d ⬝ᵥ gradient a x := by
    rw [dotProduct_comm d]
    refine Finset.sum_le_sum fun i _ => ?_
    simp only [he]
    split
    · rename_i hc
      rw [mul_zero]
      cases hfl : clampedFlags a x (gradient a x) i with
      | true => simp [hd i hfl]
      | false =>
        simp only [clampedFlags, Bool.or_eq_false_iff, Bool.and_eq_false_iff, eqb_real_false,
          ltb_real_false] at hfl
        rcases hc with ⟨hc1, hc2⟩ | ⟨hc1, hc2⟩
        · have := hfl.1.resolve_left (by simp [hc1])
          exact mul_nonneg_of_nonpos_of_nonpos this hc2.le
        · have := hfl.2.resolve_left (by simp [hc1])
          exact mul_nonneg this hc2.le
    · exact le_rfl
  set S := d ⬝ᵥ gradient a x with hS
  set q := e ⬝ᵥ (a.H *ᵥ e) with hq
  have h3 : ∀ᶠ t in nhdsWithin (0 : ℝ) (Set.Ioi 0), c.armijo < 1 + 1 / 2 * t * q / S := by
    have : Filter.Tendsto (fun t : ℝ => 1 + 1 / 2 * t * q / S) (nhds 0) (nhds (1 + 1 / 2 * 0 * q / S)) := by
      apply Filter.Tendsto.const_add
      apply Filter.Tendsto.div_const
      apply Filter.Tendsto.mul_const
      exact Filter.Tendsto.const_mul _ Filter.tendsto_id
    simp only [mul_zero, zero_mul, zero_div, add_zero] at this
    exact (this.mono_left nhdsWithin_le_nhds).eventually_const_lt ha
  filter_upwards [h1, h3, self_mem_nhdsWithin] with t ht1 ht3 ht
  have ht0 : (0 : ℝ) < t := ht
  rw [objective_eq, ht1, qp_expand hH, ← gradient_real]
  rw [le_div_iff_of_neg (mul_neg_of_pos_of_neg ht0 hs)]
  have e1 : gradient a x ⬝ᵥ (t • e) = t * (gradient a x ⬝ᵥ e) := by
    rw [dotProduct_smul, smul_eq_mul]
  have e2 : (t • e) ⬝ᵥ (a.H *ᵥ (t • e)) = t * t * q := by
    rw [Matrix.mulVec_smul, dotProduct_smul, smul_dotProduct, smul_eq_mul, smul_eq_mul, hq]; ring
  rw [e1, e2]
  have h4 : t * (gradient a x ⬝ᵥ e) ≤ t * S := mul_le_mul_of_nonneg_left h2 ht0.le
  have h5 : (1 + 1 / 2 * t * q / S) * (t * S) = t * S + 1 / 2 * (t * t * q) := by
    field_simp [hs.ne]
  have h6 : (1 + 1 / 2 * t * q / S) * (t * S) ≤ c.armijo * (t * S) :=
    mul_le_mul_of_nonpos_right ht3.le (mul_neg_of_pos_of_neg ht0 hs).le
  linarith

/-- **C07** The line search terminates from every feasible point along the computed search direction even when
`min_step` never stops it (in exact arithmetic). -/
theorem C07_line_search_finds_step (hL : L.Exact) (hH : a.H.PosDef) (hg : c.gradThre ≠ 0)
    (hf : 0 < c.stepFactor) (hf1 : c.stepFactor < 1) (ha : c.armijo < 1)
    {s : State n ℝ} (hx : InBox a.lower a.upper s.x) (ho : s.obj = qp a.H a.g s.x)
    (hgr : c.gradThre * c.gradThre ≤ freeGradNorm (gradient a s.x) (freeAt a s)) :
    ∃ ls, lineSearch c a s.x (dirAt L a s) s.obj (dirAt L a s ⬝ᵥ gradient a s.x) s.retval = some ls := by
  have hpos : 0 < freeGradNorm (gradient a s.x) (freeAt a s) :=
    lt_of_lt_of_le (mul_self_pos.2 hg) hgr
  have hsl := (dir_slope hL hH s).2 hpos
  have hd0 : ∀ i, clampedFlags a s.x (gradient a s.x) i = true → dirAt L a s i = 0 := by
    intro i hi
    refine scatter_not_mem _ _ ?_
    rw [freeAt, mem_idxs]
    simp [flagsAt, hi]
  have hev := armijo_eventually (c := c) (posDef_iff.1 hH).1 hx hd0 hsl ha
  have htend := tendsto_pow_atTop_nhdsWithin_zero_of_lt_one hf hf1
  obtain ⟨K, hK⟩ := Filter.eventually_atTop.1 (htend.eventually hev)
  refine loopM_terminates (fun t => t.step = c.stepFactor ^ t.stepNum ∧ t.stepNum ≤ K ∧
      t.xc = candidate a s.x (dirAt L a s) t.step ∧ t.objc = objective a.H a.g t.xc)
    (fun t => K - t.stepNum) ?_ ⟨by simp [lsInit], by simp [lsInit], rfl, rfl⟩
  intro t t' ht h
  unfold lsStep at h
  split at h
  · rename_i hlt
    dsimp only at h
    split at h
    · cases h
    · cases h
      have hne : t.stepNum ≠ K := by
        intro hk
        have := hK t.stepNum (by omega)
        rw [← ht.1, ← ht.2.2.1, ← ht.2.2.2, ← ho] at this
        rw [ltb_real] at hlt
        linarith
      have := ht.2.1
      refine ⟨⟨?_, ?_, rfl, rfl⟩, ?_⟩
      · show t.step * _ = _; rw [ht.1, pow_succ]
      · show t.stepNum + 1 ≤ K; omega
      · show K - (t.stepNum + 1) < K - t.stepNum; omega
  · cases h

/-- **C07** With a positive definite Hessian and consistent limits, `solve` terminates whatever `min_step` is; with
`min_step ≤ 0` (no cut-off) the objective never increases. -/
theorem C07_terminates_any_min_step (hL : L.Exact) (hH : a.H.PosDef) (hlu : ∀ i, a.lower i ≤ a.upper i)
    (hg : c.gradThre ≠ 0) (hf : 0 < c.stepFactor) (hf1 : c.stepFactor < 1) (ha0 : 0 < c.armijo)
    (ha : c.armijo < 1) (hmax : 1 ≤ c.maxIter) :
    ∃ r, solve L c o a = .ok r ∧ (r.iter : ℤ) ≤ c.maxIter ∧
      (c.minStep ≤ 0 → qp a.H a.g r.x ≤ qp a.H a.g (clampBox a.lower a.upper a.init)) := by
  have hI : ∀ s s' : State n ℝ, (Inv8 L a s ∧ InBox a.lower a.upper s.x ∧ s.obj = qp a.H a.g s.x ∧
        (s.iter : ℤ) ≤ c.maxIter) → mainStep L c a s = .inl s' →
      (Inv8 L a s' ∧ InBox a.lower a.upper s'.x ∧ s'.obj = qp a.H a.g s'.x ∧
        (s'.iter : ℤ) ≤ c.maxIter) ∧ (c.maxIter - s'.iter).toNat < (c.maxIter - s.iter).toNat := by
    intro s s' ⟨hs8, hsx, hso, hsi⟩ h
    have h8 := inv8_step hs8 h
    have := mainStep_out L c a s
    rw [h] at this
    cases this with
    | next _ _ _ _ _ _ ls hl hit =>
      refine ⟨⟨h8, ?_, ?_, ?_⟩, ?_⟩
      · show InBox _ _ ls.xc
        rw [(lineSearch_candidate hl).1]; exact clampBox_inBox hlu _
      · exact (lineSearch_candidate hl).2.1.trans (objective_eq _ _ _)
      · push_cast; omega
      · push_cast; omega
  have h0 : Inv8 L a (initState a o) ∧ InBox a.lower a.upper (initState a o).x ∧
      (initState a o).obj = qp a.H a.g (initState a o).x ∧ ((initState a o).iter : ℤ) ≤ c.maxIter :=
    ⟨inv8_init, clampBox_inBox hlu _, objective_eq _ _ _, by simpa [initState] using hmax⟩
  obtain ⟨q, hq⟩ := loopM_terminates (step := mainStep L c a) _ (fun s => (c.maxIter - s.iter).toNat)
    hI h0
  have hQ := loopM_invariant (step := mainStep L c a) _
    (fun q => ∃ s : State n ℝ, q = .ok s ∧ (s.iter : ℤ) ≤ c.maxIter)
    (fun s s' hs h => (hI s s' hs h).1)
    (fun s q hs h => by
      have := mainStep_out L c a s
      rw [h] at this
      cases this with
      | ub hn hok hd => rw [searchDirFree_coherent hs.1 hok] at hd; cases hd
      | diverge d hgr hok hd hl =>
        rw [step_searchDir hs.1 hok hd] at hl
        obtain ⟨ls, h'⟩ := C07_line_search_finds_step hL hH hg hf hf1 ha hs.2.1 hs.2.2.1
          (by simpa using hgr)
        rw [dot_real] at hl
        rw [hl] at h'; cases h'
      | _ => exact ⟨_, rfl, hs.2.2.2⟩) h0 hq
  obtain ⟨s, rfl, hs⟩ := hQ
  have hsol : solve L c o a = .ok s.result := by simp [solve, loopR, hq, Res.map]
  exact ⟨s.result, hsol, hs, fun hm => (C07_objective_decreases hL hH hg hf ha0 hsol
    (fun e _ => hm.trans (pow_pos hf _).le)).1⟩

end Nmpc.BoxQP
