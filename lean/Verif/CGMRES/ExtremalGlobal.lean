import Mathlib.Analysis.Calculus.BumpFunction.FiniteDimension
import Mathlib.Analysis.Calculus.Deriv.MeanValue
import Mathlib.Order.Monotone.Union
import Verif.CGMRES.ExtremalExists

/-!
# Solutions over all stages when a function of the state grows at most exponentially along the equation
-/

namespace Nmpc.Cgmres

open Set Finset

section Mono

/-- A function whose derivative is nonpositive on every stage. -/
theorem antitone_stages {g : ℝ → ℝ} {g' : ℕ → ℝ → ℝ} {t h : ℝ} (hh : 0 ≤ h) : ∀ N : ℕ,
    (∀ i < N, ∀ s ∈ Icc (t + i * h) (t + (i + 1) * h), HasDerivWithinAt g (g' i s) (Icc (t + i * h) (t + (i + 1) * h)) s ∧ g' i s ≤ 0) →
    AntitoneOn g (Icc t (t + N * h))
  | 0, _ => by
    rw [Nat.cast_zero, zero_mul, add_zero, Set.Icc_self]
    exact fun a ha b hb _ => by rw [ha, hb]
  | N + 1, hg => by
    have ih := antitone_stages hh N fun i hi => hg i (by omega)
    have hN : 0 ≤ (N : ℝ) * h := by positivity
    have h1 : AntitoneOn g (Icc (t + N * h) (t + (N + 1) * h)) := by
      refine antitoneOn_of_deriv_nonpos (convex_Icc _ _) (fun s hs => (hg N (by omega) s hs).1.continuousWithinAt) (fun s hs => ?_) fun s hs => ?_
      · exact ((hg N (by omega) s (interior_subset hs)).1.differentiableWithinAt).mono interior_subset
      · rw [interior_Icc] at hs
        have := (hg N (by omega) s (Ioo_subset_Icc_self hs))
        rw [(this.1.hasDerivAt (Icc_mem_nhds hs.1 hs.2)).deriv]
        exact this.2
    have h2 := AntitoneOn.union_right ih h1 (c := t + N * h) ⟨⟨by linarith, le_rfl⟩, fun s hs => hs.2⟩ ⟨⟨le_rfl, by linarith⟩, fun s hs => hs.1⟩
    rw [Set.Icc_union_Icc_eq_Icc (by linarith) (by linarith)] at h2
    rw [Nat.cast_succ]
    exact h2

end Mono

variable {X E : Type} [NormedAddCommGroup X] [NormedSpace ℝ X] [FiniteDimensional ℝ X] [NormedAddCommGroup E] [NormedSpace ℝ E] [FiniteDimensional ℝ E]

/-- A vector field cut off outside a ball. -/
theorem exists_cut {φ : X × E → E} (hφ : ContDiff ℝ 1 φ) (r : ℝ) : ∃ (b : X × E → ℝ) (M : ℝ), 0 ≤ M ∧ ContDiff ℝ 1 (fun q => b q • φ q) ∧ (∀ q, 0 ≤ b q ∧ b q ≤ 1) ∧
    (∀ q, ‖b q • φ q‖ ≤ M) ∧ ∀ q ∈ Metric.closedBall (0 : X × E) r, b q = 1 := by
  let b : ContDiffBump (0 : X × E) := ⟨max r 1, max r 1 + 1, by positivity, by linarith⟩
  obtain ⟨M, hM0, hM⟩ := bounded_on_ball hφ.continuous (max r 1 + 1)
  refine ⟨b, M, hM0, b.contDiff.smul hφ, fun q => ⟨b.nonneg, b.le_one⟩, fun q => ?_, fun q hq =>
    b.one_of_mem_closedBall (Metric.closedBall_subset_closedBall (le_max_left _ _) hq)⟩
  by_cases hq : q ∈ Metric.closedBall (0 : X × E) (max r 1 + 1)
  · rw [norm_smul, Real.norm_of_nonneg b.nonneg]
    exact (mul_le_of_le_one_left (norm_nonneg _) b.le_one).trans (hM q hq)
  · have : b q = 0 := b.zero_of_le_dist (le_of_lt (not_le.1 hq))
    rw [this, zero_smul, norm_zero]
    exact hM0

/-- Forwards over `N` stages: `V` grows at most exponentially. -/
theorem global_forward {φ : ℕ → ℝ × E → E} (hφ : ∀ i, ContDiff ℝ 1 (φ i)) {t h k B : ℝ} (hh : 0 ≤ h) (ht : 0 ≤ t) (hk : 0 ≤ k) {V : E → ℝ} {V' : E → E →L[ℝ] ℝ}
    (hV : ∀ x, HasFDerivAt V (V' x) x) (hV0 : ∀ x, 0 ≤ V x) (N : ℕ) (hVk : ∀ i < N, ∀ s x, V' x (φ i (s, x)) ≤ k * V x) (x : E)
    (hB : ∀ z, V z ≤ Real.exp (k * (N * h)) * V x → ‖z‖ ≤ B) : ∃ y : ℝ → E, Continuous y ∧ y t = x ∧
    (∀ i < N, ∀ s ∈ Icc (t + i * h) (t + (i + 1) * h), HasDerivWithinAt y (φ i (s, y s)) (Icc (t + i * h) (t + (i + 1) * h)) s) ∧
    ∀ s ∈ Icc t (t + N * h), ‖y s‖ ≤ B := by
  have hNh : 0 ≤ (N : ℝ) * h := by positivity
  choose b M hM0 hc hb hM h1 using fun i => exists_cut (hφ i) (max (t + N * h) B)
  obtain ⟨y, yc, y0, yd, -⟩ := exists_forward (φ := fun i q => b i q • φ i q) (M := ∑ i ∈ range N, M i)
    (ρ := t + N * h + (‖x‖ + (∑ i ∈ range N, M i) * (N * h))) hc (sum_nonneg fun i _ => hM0 i) hh ht x N
    (fun i hi q _ => (hM i q).trans (single_le_sum (f := M) (fun i _ => hM0 i) (Finset.mem_range.2 hi)))
    (by have := mul_nonneg (sum_nonneg (s := range N) fun i _ => hM0 i) hNh; linarith [norm_nonneg x]) (by linarith)
  have hbound : ∀ s ∈ Icc t (t + N * h), V (y s) ≤ Real.exp (k * (s - t)) * V x := by
    intro s hs
    have key := antitone_stages (g := fun s => Real.exp (-(k * s)) * V (y s))
      (g' := fun i s => Real.exp (-(k * s)) * (-k) * V (y s) + Real.exp (-(k * s)) * V' (y s) (b i (s, y s) • φ i (s, y s))) hh N (fun i hi s hs => by
        refine ⟨HasDerivWithinAt.mul ?_ ((hV (y s)).comp_hasDerivWithinAt s (yd i hi s hs)), ?_⟩
        · have : HasDerivAt (fun s : ℝ => -(k * s)) (-k) s := by simpa using ((hasDerivAt_id s).const_mul k).fun_neg
          exact this.exp.hasDerivWithinAt
        · rw [map_smul, smul_eq_mul, mul_assoc, ← mul_add]
          refine mul_nonpos_of_nonneg_of_nonpos (Real.exp_pos _).le ?_
          have e1 := hVk i hi s (y s)
          have e2 := hV0 (y s)
          obtain ⟨e3, e4⟩ := hb i (s, y s)
          have e5 : b i (s, y s) * V' (y s) (φ i (s, y s)) ≤ b i (s, y s) * (k * V (y s)) := mul_le_mul_of_nonneg_left e1 e3
          have e6 : b i (s, y s) * (k * V (y s)) ≤ 1 * (k * V (y s)) := mul_le_mul_of_nonneg_right e4 (mul_nonneg hk e2)
          linarith)
    have h2 := key ⟨le_rfl, by linarith⟩ hs hs.1
    simp only [y0] at h2
    have h3 := mul_le_mul_of_nonneg_left h2 (Real.exp_pos (k * s)).le
    rw [← mul_assoc, ← Real.exp_add, ← mul_assoc, ← Real.exp_add, add_neg_cancel, Real.exp_zero, one_mul] at h3
    refine h3.trans (le_of_eq ?_)
    ring_nf
  have hyB : ∀ s ∈ Icc t (t + N * h), ‖y s‖ ≤ B := fun s hs => hB _ ((hbound s hs).trans
    (mul_le_mul_of_nonneg_right (Real.exp_le_exp.2 (mul_le_mul_of_nonneg_left (by linarith [hs.2]) hk)) (hV0 _)))
  refine ⟨y, yc, y0, fun i hi s hs => (yd i hi s hs).congr_deriv ?_, hyB⟩
  have hs' : s ∈ Icc t (t + N * h) := by
    have e1 : 0 ≤ (i : ℝ) * h := by positivity
    have e2 : ((i : ℝ) + 1) * h ≤ N * h := mul_le_mul_of_nonneg_right (by exact_mod_cast hi) hh
    exact ⟨by linarith [hs.1], by linarith [hs.2]⟩
  rw [h1 i (s, y s) ?_, one_smul]
  rw [mem_closedBall_zero_iff]
  refine max_le ?_ ((hyB s hs').trans (le_max_right _ _))
  rw [Real.norm_of_nonneg (by linarith [hs'.1])]
  exact hs'.2.trans (le_max_left _ _)

/-- Backwards over `N` stages, along given continuous data. -/
theorem global_backward {φ : ℕ → X × E → E} (hφ : ∀ i, ContDiff ℝ 1 (φ i)) {c : ℕ → ℝ → X} (hc : ∀ i, Continuous (c i)) {t h k B ρ : ℝ} (hh : 0 ≤ h) (hk : 0 ≤ k) {V : E → ℝ}
    {V' : E → E →L[ℝ] ℝ} (hV : ∀ x, HasFDerivAt V (V' x) x) (hV0 : ∀ x, 0 ≤ V x) (N : ℕ) (hcb : ∀ i < N, ∀ s ∈ Icc t (t + N * h), ‖c i s‖ ≤ ρ)
    (hVk : ∀ i < N, ∀ s ∈ Icc t (t + N * h), ∀ x, -(k * V x) ≤ V' x (φ i (c i s, x))) (l : E)
    (hB : ∀ z, V z ≤ Real.exp (k * (N * h)) * V l → ‖z‖ ≤ B) : ∃ z : ℝ → E, z (t + N * h) = l ∧
    (∀ i < N, ∀ s ∈ Icc (t + i * h) (t + (i + 1) * h), HasDerivWithinAt z (φ i (c i s, z s)) (Icc (t + i * h) (t + (i + 1) * h)) s) ∧
    ∀ s ∈ Icc t (t + N * h), ‖z s‖ ≤ B := by
  have hNh : 0 ≤ (N : ℝ) * h := by positivity
  have hin : ∀ i < N, ∀ s ∈ Icc (t + i * h) (t + (i + 1) * h), s ∈ Icc t (t + N * h) := by
    intro i hi s hs
    have e1 : 0 ≤ (i : ℝ) * h := by positivity
    have e2 : ((i : ℝ) + 1) * h ≤ N * h := mul_le_mul_of_nonneg_right (by exact_mod_cast hi) hh
    exact ⟨by linarith [hs.1], by linarith [hs.2]⟩
  choose b M hM0 hcd hb hM h1 using fun i => exists_cut (hφ i) (max ρ B)
  have hS := mul_nonneg (sum_nonneg (s := range N) fun i _ => hM0 i) hNh
  obtain ⟨z, z0, zd, -⟩ := exists_backward (M := ∑ i ∈ range N, M i) (ρ := |ρ| + (‖l‖ + (∑ i ∈ range N, M i) * (N * h))) (sum_nonneg fun i _ => hM0 i) hh l N
    (fun i q => b i q • φ i q) c t hcd hc
    (fun i hi q _ => (hM i q).trans (single_le_sum (f := M) (fun i _ => hM0 i) (Finset.mem_range.2 hi)))
    (fun i hi s hs => (hcb i hi s hs).trans (by linarith [le_abs_self ρ, norm_nonneg l])) (by linarith [abs_nonneg ρ])
  have hbound : ∀ s ∈ Icc t (t + N * h), V (z s) ≤ Real.exp (k * (t + N * h - s)) * V l := by
    intro s hs
    have key := antitone_stages (g := fun s => -(Real.exp (k * s) * V (z s)))
      (g' := fun i s => -(Real.exp (k * s) * k * V (z s) + Real.exp (k * s) * V' (z s) (b i (c i s, z s) • φ i (c i s, z s)))) hh N (fun i hi s hs => by
        refine ⟨HasDerivWithinAt.fun_neg (HasDerivWithinAt.mul ?_ ((hV (z s)).comp_hasDerivWithinAt s (zd i hi s hs))), ?_⟩
        · have : HasDerivAt (fun s : ℝ => k * s) k s := by simpa using (hasDerivAt_id s).const_mul k
          exact this.exp.hasDerivWithinAt
        · rw [map_smul, smul_eq_mul, mul_assoc, ← mul_add, ← mul_neg]
          refine mul_nonpos_of_nonneg_of_nonpos (Real.exp_pos _).le ?_
          have e1 := hVk i hi s (hin i hi s hs) (z s)
          have e2 := hV0 (z s)
          obtain ⟨e3, e4⟩ := hb i (c i s, z s)
          have e5 : b i (c i s, z s) * (-(k * V (z s))) ≤ b i (c i s, z s) * V' (z s) (φ i (c i s, z s)) := mul_le_mul_of_nonneg_left e1 e3
          have e6 : b i (c i s, z s) * (k * V (z s)) ≤ 1 * (k * V (z s)) := mul_le_mul_of_nonneg_right e4 (mul_nonneg hk e2)
          linarith)
    have h2 := key hs ⟨by linarith, le_rfl⟩ hs.2
    simp only [z0] at h2
    have h3 := mul_le_mul_of_nonneg_left (neg_le_neg_iff.1 h2) (Real.exp_pos (-(k * s))).le
    rw [← mul_assoc, ← Real.exp_add, ← mul_assoc, ← Real.exp_add, neg_add_cancel, Real.exp_zero, one_mul] at h3
    refine h3.trans (le_of_eq ?_)
    ring_nf
  have hzB : ∀ s ∈ Icc t (t + N * h), ‖z s‖ ≤ B := fun s hs => hB _ ((hbound s hs).trans
    (mul_le_mul_of_nonneg_right (Real.exp_le_exp.2 (mul_le_mul_of_nonneg_left (by linarith [hs.1]) hk)) (hV0 _)))
  refine ⟨z, z0, fun i hi s hs => (zd i hi s hs).congr_deriv ?_, hzB⟩
  rw [h1 i (c i s, z s) ?_, one_smul]
  rw [mem_closedBall_zero_iff]
  exact max_le ((hcb i hi s (hin i hi s hs)).trans (le_max_left _ _)) ((hzB s (hin i hi s hs)).trans (le_max_right _ _))

end Nmpc.Cgmres
