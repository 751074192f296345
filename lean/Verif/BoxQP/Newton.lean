import Verif.BoxQP.Props

/-!
# C09: strictly inside the box, BoxQP performs one Newton step
-/

namespace Nmpc.BoxQP

open Matrix

variable {n : ℕ} {L : LLT ℝ} {c : Config ℝ} {a : Args n ℝ} {o : Obj n ℝ} {r : Result n ℝ}

theorem flags_interior {x : Vec n ℝ} (hx : ∀ i, a.lower i < x i ∧ x i < a.upper i) (grad : Vec n ℝ) (i : Fin n) :
    clampedFlags a x grad i = false := by
  have := hx i
  simp [clampedFlags, this.1.ne', this.2.ne]

theorem mulVec_dirAt (hL : L.Exact) (hH : a.H.PosDef) {s : State n ℝ} (hf : ∀ i, flagsAt a s i = false) :
    a.H *ᵥ dirAt L a s = - gradient a s.x := by
  have hn := dir_newton hL hH s
  funext k
  have hk : k ∈ freeAt a s := by simp [freeAt, mem_idxs, hf]
  obtain ⟨j, hj⟩ := List.get_of_mem hk
  have h1 := congrFun hn j
  have h2 : (- subVec (gradient a s.x) (freeAt a s)) j = (-gradient a s.x) k := by
    simp only [Pi.neg_apply, subVec, hj]
  rw [h2] at h1
  rw [← h1]
  simp only [Matrix.mulVec, dotProduct]
  rw [sum_split (flagsAt a s) (fun i => a.H k i * dirAt L a s i)]
  have h3 : ∑ i : Fin (idxs (flagsAt a s)).length,
      a.H k ((idxs (flagsAt a s)).get i) * dirAt L a s ((idxs (flagsAt a s)).get i) = 0 := by
    refine Finset.sum_eq_zero fun i _ => ?_
    have := mem_idxs.1 (List.get_mem (idxs (flagsAt a s)) i)
    rw [hf] at this; cases this
  rw [h3, add_zero]
  refine Finset.sum_congr rfl fun i _ => ?_
  have h4 : dirAt L a s ((freeAt a s).get i) = _ := scatter_get _ (idxs_nodup _) _ i
  change a.H k ((freeAt a s).get i) * dirAt L a s ((freeAt a s).get i) = _
  rw [h4]
  simp only [subMat, hj]

/-- **C09** If `H` is positive definite, the initial guess and the unconstrained minimiser `xs` (`H xs = -g`) are strictly
inside the box and the gradient at the initial guess is not already below the tolerance, then `solve` returns exactly
`xs` after at most two iterations; the code is 5 (small gradient) if more than one iteration is allowed and the step improves the objective
by the relative amount demanded. -/
theorem C09_interior_newton (hL : L.Exact) (hH : a.H.PosDef)
    (hinit : ∀ i, a.lower i < a.init i ∧ a.init i < a.upper i)
    {xs : Vec n ℝ} (hxs : a.H *ᵥ xs = -a.g) (hin : ∀ i, a.lower i < xs i ∧ xs i < a.upper i)
    (harm : c.armijo ≤ 1 / 2) (hthre : c.gradThre ≠ 0)
    (hgrad : c.gradThre * c.gradThre ≤ (a.g + a.H *ᵥ a.init) ⬝ᵥ (a.g + a.H *ᵥ a.init)) :
    ∃ r, solve L c o a = .ok r ∧ r.x = xs ∧ r.iter ≤ 2 ∧ r.obj.retval ∈ ([1, 4, 5] : List ℤ) ∧
      (c.maxIter ≠ 1 → c.relImproveThre * |qp a.H a.g a.init| ≤ qp a.H a.g a.init - qp a.H a.g xs → r.obj.retval = 5) := by
  have hclamp : ∀ x : Vec n ℝ, (∀ i, a.lower i < x i ∧ x i < a.upper i) →
      clampBox a.lower a.upper x = x := by
    intro x hx
    funext i
    simp only [clampBox, fmax_real, fmin_real]
    rw [min_eq_left (hx i).2.le, max_eq_left (hx i).1.le]
  have hpd := posDef_iff.1 hH
  obtain ⟨s0, hs0⟩ : ∃ s0, s0 = initState a o := ⟨_, rfl⟩
  have hx0 : s0.x = a.init := by rw [hs0]; exact hclamp _ hinit
  have hi0 : s0.iter = 1 := by rw [hs0]; rfl
  have ho0 : s0.obj = qp a.H a.g a.init := by
    rw [← hx0, hs0]; exact objective_eq _ _ _
  have hinv0 : Inv8 L a s0 := by rw [hs0]; exact inv8_init
  have hf0 : ∀ i, flagsAt a s0 i = false := by
    intro i; rw [flagsAt, hx0]; exact flags_interior hinit _ i
  have hg0 : gradient a s0.x = a.g + a.H *ᵥ a.init := by rw [hx0]; rfl
  have hfree : freeGradNorm (gradient a s0.x) (freeAt a s0) =
      (a.g + a.H *ᵥ a.init) ⬝ᵥ (a.g + a.H *ᵥ a.init) := by
    rw [freeAt, freeGradNorm_eq, hg0]
    simp [hf0, dotProduct]
  have hpos : 0 < freeGradNorm (gradient a s0.x) (freeAt a s0) := by
    rw [hfree]; exact lt_of_lt_of_le (mul_self_pos.2 hthre) hgrad
  have hn : 0 < n := by
    rcases Nat.eq_zero_or_pos n with rfl | h
    · rw [hfree] at hpos; simp [dotProduct] at hpos
    · exact h
  have hsl := (dir_slope hL hH s0).2 hpos
  -- the Newton step leads to `xs`
  have hdir : a.init + dirAt L a s0 = xs := by
    have h1 : a.H *ᵥ (a.init + dirAt L a s0 - xs) = 0 := by
      rw [Matrix.mulVec_sub, Matrix.mulVec_add, mulVec_dirAt hL hH hf0, hg0, hxs]
      abel
    by_contra hne
    have := hpd.2 _ (sub_ne_zero.2 hne)
    rw [h1, dotProduct_zero] at this
    exact lt_irrefl _ this
  have hcand : candidate a s0.x (dirAt L a s0) 1 = xs := by
    rw [candidate, smulv_real, one_smul, hx0, hdir]; exact hclamp _ hin
  have hval : qp a.H a.g xs - s0.obj = 1 / 2 * (dirAt L a s0 ⬝ᵥ gradient a s0.x) := by
    rw [ho0, ← hdir, qp_expand hpd.1, ← hg0, mulVec_dirAt hL hH hf0, dotProduct_neg,
      dotProduct_comm (gradient a s0.x)]
    ring
  have hls : lineSearch c a s0.x (dirAt L a s0) s0.obj (dirAt L a s0 ⬝ᵥ gradient a s0.x) s0.retval =
      some (lsInit a s0.x (dirAt L a s0) s0.retval) := by
    refine loopM_inr ?_
    rw [lsStep, if_neg]
    simp only [lsInit, ltb_real, hcand, objective_eq, hval, one_mul, not_lt]
    rw [mul_div_assoc, div_self hsl.ne, mul_one]
    exact harm
  -- second iteration
  have second : ∀ s1 : State n ℝ, s1.x = xs → Inv8 L a s1 → s1.iter = 2 →
      ∃ s2, mainStep L c a s1 = .inr (.ok s2) ∧ s2.x = xs ∧ s2.iter = 2 ∧
        s2.retval ∈ ([1, 4, 5] : List ℤ) ∧ (c.relImproveThre * |s1.oldObj| ≤ s1.oldObj - s1.obj → s2.retval = 5) := by
    intro s1 hx1 hinv1 hi1
    have hg1 : gradient a s1.x = 0 := by
      rw [hx1, gradient_real, hxs]; simp
    have hf1 : ∀ i, flagsAt a s1 i = false := by
      intro i; rw [flagsAt, hx1]; exact flags_interior hin _ i
    have hz : freeGradNorm (gradient a s1.x) (freeAt a s1) = 0 := by
      rw [freeAt, freeGradNorm_eq, hg1]; simp
    have hlt : ltb (freeGradNorm (gradient a s1.x) (freeAt a s1)) (c.gradThre * c.gradThre) = true := by
      rw [hz, ltb_real]; exact mul_self_pos.2 hthre
    have hout := mainStep_out L c a s1
    generalize mainStep L c a s1 = z at hout
    cases hout with
    | rel _ h => exact ⟨_, rfl, hx1, hi1, by simp, fun h' => by rw [ltb_real, abs_real] at h; linarith⟩
    | all h => exact absurd (h ⟨0, hn⟩) (by simp [hf1])
    | fail _ _ hok =>
      have hPD : (subMat a.H (freeAt a s1) (freeAt a s1)).PosDef := subMat_posDef hH _
      rw [← hL.ok_iff _ (posDef_iff.1 hPD).1] at hPD
      rw [hPD] at hok; cases hok
    | grad => exact ⟨_, rfl, hx1, hi1, by simp, fun _ => rfl⟩
    | ub _ hok hd => rw [searchDirFree_coherent hinv1 hok] at hd; cases hd
    | ascent _ _ hg => rw [hlt] at hg; cases hg
    | diverge _ hg => rw [hlt] at hg; cases hg
    | maxIter _ _ hg => rw [hlt] at hg; cases hg
    | next _ _ hg => rw [hlt] at hg; cases hg
  -- first iteration
  have hout := mainStep_out L c a s0
  generalize hz : mainStep L c a s0 = z at hout
  cases hout with
  | rel h1 => omega
  | all h => exact absurd (h ⟨0, hn⟩) (by simp [hf0])
  | fail _ _ hok =>
    have hPD : (subMat a.H (freeAt a s0) (freeAt a s0)).PosDef := subMat_posDef hH _
    rw [← hL.ok_iff _ (posDef_iff.1 hPD).1] at hPD
    rw [hPD] at hok; cases hok
  | grad _ _ hlt =>
    rw [ltb_real, hfree] at hlt
    exact absurd hgrad (not_le.2 hlt)
  | ub _ hok hd => rw [searchDirFree_coherent hinv0 hok] at hd; cases hd
  | ascent _ hok _ d hd hlt =>
    rw [step_searchDir hinv0 hok hd] at hlt
    simp only [dot_real, ltb_real, lit_real] at hlt
    norm_num at hlt
    linarith
  | diverge d _ hok hd hl =>
    rw [step_searchDir hinv0 hok hd, dot_real, hls] at hl
    cases hl
  | maxIter _ hok _ d hd _ ls hl hmi =>
    rw [step_searchDir hinv0 hok hd, dot_real, hls] at hl
    cases hl
    refine ⟨_, by rw [solve, loopR, ← hs0, loopM_inr hz]; rfl, hcand, ?_, by simp [State.result],
      fun h => absurd hmi (by rw [hi0]; exact_mod_cast h.symm)⟩
    show s0.iter ≤ 2; omega
  | next _ hok _ d hd _ ls hl =>
    have h8 := inv8_step hinv0 hz
    rw [step_searchDir hinv0 hok hd, dot_real, hls] at hl
    cases hl
    obtain ⟨s2, h2, h3, h4, h5, h6⟩ := second _ (show _ = xs from hcand) h8 (show s0.iter + 1 = 2 by omega)
    refine ⟨s2.result, by rw [solve, loopR, ← hs0, loopM_inl hz, loopM_inr h2]; rfl, h3, h4.le, h5, fun _ h => h6 ?_⟩
    show c.relImproveThre * |s0.obj| ≤ s0.obj - objective a.H a.g (candidate a s0.x (dirAt L a s0) 1)
    rw [hcand, objective_eq, ho0]; exact h

end Nmpc.BoxQP
