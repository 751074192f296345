import Verif.CGMRES.GmresProps
import Mathlib.Analysis.Matrix.Spectrum
import Mathlib.Analysis.SpecialFunctions.Trigonometric.Chebyshev.RootsExtrema

/-!
# Lemmas for the convergence rate of GMRES (C111)
-/

namespace Nmpc.Gmres

open Matrix Polynomial

variable {n : ℕ}

theorem norm2_nonneg (v : Vec n ℝ) : 0 ≤ norm2 v := norm_nonneg _

theorem norm2_sq (v : Vec n ℝ) : norm2 v ^ 2 = v ⬝ᵥ v := by
  rw [← vnorm_norm2, vnorm_real, Real.sq_sqrt (by rw [dotProduct]; exact Finset.sum_nonneg fun i _ => mul_self_nonneg _)]

/-- A polynomial in the matrix without its constant term, applied to the initial residual, stays in the Krylov space. -/
theorem divX_mem_krylov (M : Mat n n ℝ) (v : Vec n ℝ) {q : ℝ[X]} {k : ℕ} (hk : q.natDegree ≤ k) :
    aeval M q.divX *ᵥ v ∈ krylov M v k := by
  rcases Nat.eq_zero_or_pos k with rfl | hk0
  · have : q.divX = 0 := by
      rw [eq_C_of_natDegree_le_zero hk, divX_C]
    rw [this, map_zero, zero_mulVec]
    exact Submodule.zero_mem _
  · have hd : q.divX.natDegree < k := by rw [natDegree_divX_eq_natDegree_tsub_one]; omega
    rw [aeval_eq_sum_range' hd, sum_mulVec]
    refine Submodule.sum_mem _ fun i hi => ?_
    rw [smul_mulVec]
    exact Submodule.smul_mem _ _ (Submodule.subset_span ⟨⟨i, by simpa using hi⟩, rfl⟩)

/-- Every polynomial with value 1 at 0 is the residual polynomial of a point of the search space. -/
theorem exists_residual_eq (M : Mat n n ℝ) (b x : Vec n ℝ) {q : ℝ[X]} (h0 : q.eval 0 = 1) {k : ℕ} (hk : q.natDegree ≤ k) :
    ∃ z, z - x ∈ krylov M (b - M *ᵥ x) k ∧ b - M *ᵥ z = aeval M q *ᵥ (b - M *ᵥ x) := by
  refine ⟨x - aeval M q.divX *ᵥ (b - M *ᵥ x), ?_, ?_⟩
  · rw [sub_sub_cancel_left]
    exact Submodule.neg_mem _ (divX_mem_krylov M _ hk)
  · have hq : aeval M q = M * aeval M q.divX + 1 := by
      conv_lhs => rw [← X_mul_divX_add q]
      rw [map_add, map_mul, aeval_X, aeval_C, coeff_zero_eq_eval_zero, h0, map_one]
    rw [hq, add_mulVec, one_mulVec, mulVec_sub, mulVec_mulVec]
    abel

theorem natDegree_C_mul_X_le' (a : ℝ) : (C a * X : ℝ[X]).natDegree ≤ 1 :=
  (natDegree_C_mul_le _ _).trans natDegree_X_le

/-- One damped step reduces the residual: `|(1 - (μ / Λ²) M) v|² ≤ (1 - μ² / Λ²) |v|²`. -/
theorem damped_step (M : Mat n n ℝ) {μ Λ : ℝ} (hμ : 0 < μ) (hΛ : 0 < Λ) (hm : ∀ v, μ * (v ⬝ᵥ v) ≤ v ⬝ᵥ M *ᵥ v)
    (hM : ∀ v, norm2 (M *ᵥ v) ≤ Λ * norm2 v) (v : Vec n ℝ) :
    norm2 (v - (μ / Λ ^ 2) • M *ᵥ v) ^ 2 ≤ (1 - μ ^ 2 / Λ ^ 2) * norm2 v ^ 2 := by
  have h1 := hm v
  have h2 : M *ᵥ v ⬝ᵥ M *ᵥ v ≤ Λ ^ 2 * (v ⬝ᵥ v) := by
    rw [← norm2_sq, ← norm2_sq, ← mul_pow]
    exact pow_le_pow_left₀ (norm2_nonneg _) (hM v) 2
  rw [norm2_sq, norm2_sq, sub_dotProduct, dotProduct_sub, dotProduct_sub, smul_dotProduct, dotProduct_smul, smul_dotProduct, dotProduct_smul,
    dotProduct_comm (M *ᵥ v) v]
  simp only [smul_eq_mul]
  have ha : 0 < μ / Λ ^ 2 := by positivity
  have h3 : μ / Λ ^ 2 * (μ / Λ ^ 2 * (M *ᵥ v ⬝ᵥ M *ᵥ v)) ≤ μ / Λ ^ 2 * (μ / Λ ^ 2 * (Λ ^ 2 * (v ⬝ᵥ v))) := by gcongr
  have h4 : μ / Λ ^ 2 * (μ * (v ⬝ᵥ v)) ≤ μ / Λ ^ 2 * (v ⬝ᵥ M *ᵥ v) := by gcongr
  have e1 : μ / Λ ^ 2 * (μ / Λ ^ 2 * (Λ ^ 2 * (v ⬝ᵥ v))) = μ ^ 2 / Λ ^ 2 * (v ⬝ᵥ v) := by field_simp
  have e2 : μ / Λ ^ 2 * (μ * (v ⬝ᵥ v)) = μ ^ 2 / Λ ^ 2 * (v ⬝ᵥ v) := by ring
  rw [e1] at h3
  rw [e2] at h4
  linarith

theorem damped_pow (M : Mat n n ℝ) {μ Λ : ℝ} (hμ : 0 < μ) (hΛ : 0 < Λ) (hm : ∀ v, μ * (v ⬝ᵥ v) ≤ v ⬝ᵥ M *ᵥ v)
    (hM : ∀ v, norm2 (M *ᵥ v) ≤ Λ * norm2 v) (k : ℕ) (v : Vec n ℝ) :
    norm2 (aeval M ((1 - C (μ / Λ ^ 2) * X) ^ k) *ᵥ v) ≤ Real.sqrt (1 - μ ^ 2 / Λ ^ 2) ^ k * norm2 v := by
  induction k with
  | zero => simp
  | succ k ih =>
    have e : aeval M ((1 - C (μ / Λ ^ 2) * X) ^ (k + 1)) *ᵥ v =
        aeval M ((1 - C (μ / Λ ^ 2) * X) ^ k) *ᵥ v - (μ / Λ ^ 2) • M *ᵥ (aeval M ((1 - C (μ / Λ ^ 2) * X) ^ k) *ᵥ v) := by
      rw [pow_succ', map_mul, ← mulVec_mulVec, map_sub, map_one, map_mul, aeval_X, aeval_C, sub_mulVec, one_mulVec,
        Algebra.algebraMap_eq_smul_one, smul_mul_assoc, one_mul, smul_mulVec]
    have h := damped_step M hμ hΛ hm hM (aeval M ((1 - C (μ / Λ ^ 2) * X) ^ k) *ᵥ v)
    have h' := Real.sqrt_le_sqrt h
    rw [← e, Real.sqrt_sq (norm2_nonneg _), Real.sqrt_mul' _ (sq_nonneg _), Real.sqrt_sq (norm2_nonneg _)] at h'
    calc _ ≤ _ := h'
      _ ≤ _ := mul_le_mul_of_nonneg_left ih (Real.sqrt_nonneg _)
      _ = _ := by ring

theorem damped_poly (a : ℝ) (k : ℕ) : ((1 - C a * X) ^ k : ℝ[X]).eval 0 = 1 ∧ ((1 - C a * X) ^ k : ℝ[X]).natDegree ≤ k := by
  refine ⟨by simp, natDegree_pow_le.trans ?_⟩
  have : (1 - C a * X : ℝ[X]).natDegree ≤ 1 := by
    refine (natDegree_sub_le _ _).trans ?_
    simpa using natDegree_C_mul_X_le' a
  nlinarith

/-- A positive definite matrix (not necessarily symmetric) is invertible. -/
theorem isUnit_det_of_coercive (M : Mat n n ℝ) {μ : ℝ} (hμ : 0 < μ) (hm : ∀ v, μ * (v ⬝ᵥ v) ≤ v ⬝ᵥ M *ᵥ v) : IsUnit M.det := by
  rw [isUnit_iff_ne_zero]
  intro h
  obtain ⟨v, hv, h0⟩ := Matrix.exists_mulVec_eq_zero_iff.mpr h
  have h1 := hm v
  rw [h0, dotProduct_zero] at h1
  have h2 : 0 < v ⬝ᵥ v := by
    rw [← norm2_sq, ← vnorm_norm2]
    refine pow_pos (lt_of_le_of_ne (vnorm_nonneg _) fun h => hv (vnorm_eq_zero.mp h.symm)) 2
  nlinarith

/-! ## Symmetric matrices -/

/-- A polynomial in a symmetric matrix is at most its largest absolute value on the range of the quadratic form. -/
theorem symm_poly_le (M : Mat n n ℝ) (hs : M.IsSymm) {l u : ℝ} (hl : ∀ v, l * (v ⬝ᵥ v) ≤ v ⬝ᵥ M *ᵥ v)
    (hu : ∀ v, v ⬝ᵥ M *ᵥ v ≤ u * (v ⬝ᵥ v)) {q : ℝ[X]} {c : ℝ} (hc : 0 ≤ c) (hq : ∀ t, l ≤ t → t ≤ u → |q.eval t| ≤ c) (v : Vec n ℝ) :
    norm2 (aeval M q *ᵥ v) ≤ c * norm2 v := by
  have hH : M.IsHermitian := by
    rw [Matrix.IsHermitian, conjTranspose_eq_transpose_of_trivial]; exact hs
  let B := hH.eigenvectorBasis
  have hB : ∀ i, M *ᵥ (B i).ofLp = hH.eigenvalues i • (B i).ofLp := fun i => hH.mulVec_eigenvectorBasis i
  have hone : ∀ i, (B i).ofLp ⬝ᵥ (B i).ofLp = 1 := by
    intro i
    rw [← norm2_sq]
    have : norm2 (B i).ofLp = 1 := by simp [norm2]
    rw [this, one_pow]
  have hev : ∀ i, |q.eval (hH.eigenvalues i)| ≤ c := by
    intro i
    have h1 := hl (B i).ofLp
    have h2 := hu (B i).ofLp
    rw [hB, dotProduct_smul, hone, smul_eq_mul, mul_one] at h1 h2
    exact hq _ (by linarith) (by linarith)
  have hpow : ∀ i (k : ℕ), M ^ k *ᵥ (B i).ofLp = hH.eigenvalues i ^ k • (B i).ofLp := by
    intro i k
    induction k with
    | zero => simp
    | succ k ih => rw [pow_succ', ← mulVec_mulVec, ih, mulVec_smul, hB, smul_smul, pow_succ]
  have hpoly : ∀ i, aeval M q *ᵥ (B i).ofLp = q.eval (hH.eigenvalues i) • (B i).ofLp := by
    intro i
    rw [aeval_eq_sum_range, sum_mulVec, eval_eq_sum_range, Finset.sum_smul]
    refine Finset.sum_congr rfl fun k _ => ?_
    rw [smul_mulVec, hpow, smul_smul]
  have hv : v = ∑ i, B.repr (WithLp.toLp 2 v) i • (B i).ofLp := by
    have := congrArg WithLp.ofLp (B.sum_repr (WithLp.toLp 2 v))
    rw [WithLp.ofLp_sum] at this
    exact this.symm
  have hqv : WithLp.toLp 2 (aeval M q *ᵥ v) = ∑ i, (q.eval (hH.eigenvalues i) * B.repr (WithLp.toLp 2 v) i) • B i := by
    conv_lhs => rw [hv]
    rw [mulVec_sum, WithLp.toLp_sum]
    refine Finset.sum_congr rfl fun i _ => ?_
    rw [mulVec_smul, hpoly, smul_smul, WithLp.toLp_smul, mul_comm]
  have hcoef : ∀ i, B.repr (WithLp.toLp 2 (aeval M q *ᵥ v)) i = q.eval (hH.eigenvalues i) * B.repr (WithLp.toLp 2 v) i := by
    intro i
    rw [hqv, map_sum, WithLp.ofLp_sum, Finset.sum_apply, Finset.sum_eq_single i]
    · simp
    · intro j _ hji; simp [hji.symm]
    · simp
  have hn : ∀ w : EuclideanSpace ℝ (Fin n), ‖w‖ ^ 2 = ∑ i, B.repr w i ^ 2 := by
    intro w
    rw [← B.repr.norm_map w, EuclideanSpace.norm_sq_eq]
    simp
  refine abs_le_of_sq_le_sq' ?_ (mul_nonneg hc (norm2_nonneg _)) |>.2
  rw [mul_pow]
  unfold norm2
  rw [hn, hn, Finset.mul_sum]
  refine Finset.sum_le_sum fun i _ => ?_
  rw [hcoef, mul_pow]
  have := sq_le_sq' (by linarith [neg_abs_le (q.eval (hH.eigenvalues i)), hev i]) ((le_abs_self _).trans (hev i))
  gcongr

/-- The Chebyshev polynomial of degree `k`, moved from `[-1, 1]` to `[l, u]` and divided by its value at 0. -/
noncomputable def chebResidual (l u : ℝ) (k : ℕ) : ℝ[X] :=
  C ((Chebyshev.T ℝ k).eval ((u + l) / (u - l)))⁻¹ * (Chebyshev.T ℝ k).comp (C ((u + l) / (u - l)) - C (2 / (u - l)) * X)

theorem chebResidual_poly {l u : ℝ} (hl : 0 < l) (hu : l < u) (k : ℕ) : (chebResidual l u k).eval 0 = 1 ∧ (chebResidual l u k).natDegree ≤ k := by
  have hσ : 1 ≤ (u + l) / (u - l) := by rw [le_div_iff₀ (by linarith)]; linarith
  have h1 := Chebyshev.one_le_eval_T_real (k : ℤ) hσ
  refine ⟨?_, ?_⟩
  · unfold chebResidual
    rw [eval_mul, eval_C, eval_comp, eval_sub, eval_mul, eval_C, eval_C, eval_X, mul_zero, sub_zero, inv_mul_cancel₀ (by linarith)]
  · unfold chebResidual
    refine (natDegree_C_mul_le _ _).trans (natDegree_comp_le.trans ?_)
    rw [Chebyshev.natDegree_T, Int.natAbs_natCast]
    have : (C ((u + l) / (u - l)) - C (2 / (u - l)) * X : ℝ[X]).natDegree ≤ 1 := by
      refine (natDegree_sub_le _ _).trans ?_
      simpa using natDegree_C_mul_X_le' _
    nlinarith

theorem chebResidual_le {l u : ℝ} (hl : 0 < l) (hu : l < u) (k : ℕ) {t : ℝ} (h1 : l ≤ t) (h2 : t ≤ u) :
    |(chebResidual l u k).eval t| ≤ 2 * ((√u - √l) / (√u + √l)) ^ k := by
  have hd : 0 < u - l := by linarith
  have hsl : 0 < √l := Real.sqrt_pos.mpr hl
  have hsu : √l < √u := Real.sqrt_lt_sqrt hl.le hu
  have hp : 0 < √u - √l := by linarith
  have hs : 0 < √u + √l := by linarith
  have hul : u - l = (√u - √l) * (√u + √l) := by
    nlinarith [Real.sq_sqrt hl.le, Real.sq_sqrt (hl.trans hu).le]
  have hcosh : Real.cosh (Real.log ((√u + √l) / (√u - √l))) = (u + l) / (u - l) := by
    rw [Real.cosh_log (by positivity), inv_div, hul]
    field_simp
    nlinarith [Real.sq_sqrt hl.le, Real.sq_sqrt (hl.trans hu).le]
  have hT : ((√u + √l) / (√u - √l)) ^ k / 2 ≤ (Chebyshev.T ℝ k).eval ((u + l) / (u - l)) := by
    rw [← hcosh, Chebyshev.T_real_cosh]
    have he : Real.exp ((k : ℤ) * Real.log ((√u + √l) / (√u - √l))) = ((√u + √l) / (√u - √l)) ^ k := by
      rw [Int.cast_natCast, ← Real.log_pow, Real.exp_log (by positivity)]
    rw [Real.cosh_eq, he]
    have := Real.exp_pos (-((k : ℤ) * Real.log ((√u + √l) / (√u - √l))))
    linarith
  have hpos : 0 < ((√u + √l) / (√u - √l)) ^ k / 2 := by positivity
  unfold chebResidual
  rw [eval_mul, eval_C, eval_comp, eval_sub, eval_mul, eval_C, eval_C, eval_X, abs_mul, abs_inv, abs_of_pos (hpos.trans_le hT)]
  have h3 : |(Chebyshev.T ℝ k).eval ((u + l) / (u - l) - 2 / (u - l) * t)| ≤ 1 := by
    refine Chebyshev.abs_eval_T_real_le_one _ ?_
    rw [abs_le]
    have e : (u + l) / (u - l) - 2 / (u - l) * t = (u + l - 2 * t) / (u - l) := by field_simp
    rw [e, le_div_iff₀ hd, div_le_iff₀ hd]
    constructor <;> linarith
  calc _ ≤ (((√u + √l) / (√u - √l)) ^ k / 2)⁻¹ * 1 := by
        gcongr
    _ = 2 * ((√u - √l) / (√u + √l)) ^ k := by
        rw [mul_one, inv_div, div_eq_mul_inv, ← inv_pow, inv_div]

end Nmpc.Gmres
