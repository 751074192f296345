import Verif.CGMRES.Rate
import Verif.CGMRES.GmresExamples

/-!
# Convergence rate of GMRES (C111)

`cgmres_param.dat` limits GMRES to a few iterations, far fewer than unknowns, so that C48 does not apply.
-/

namespace Nmpc.Gmres

open Matrix Polynomial

variable {n : ℕ} (L : Dense ℝ) (cfg : Config ℝ) (b x : Vec n ℝ)

/-- **C111** The residual of the returned point is at most that of every polynomial with value 1 at 0 and degree at most the number of
iterations, evaluated at the matrix and applied to the initial residual. -/
theorem C111_polynomial (hL : L.Exact) (M : Mat n n ℝ) {r : Out n ℝ} (h : solveMat L cfg M b x = .ok r) (hb : NoBreakdown cfg r)
    {q : ℝ[X]} (h0 : q.eval 0 = 1) (hq : q.natDegree ≤ r.k) :
    norm2 (b - M *ᵥ r.x) ≤ norm2 (aeval M q *ᵥ (b - M *ᵥ x)) := by
  obtain ⟨z, hz, he⟩ := exists_residual_eq M b x h0 hq
  rw [← he]
  exact (C47_krylov L cfg b x hL M h hb).2 z hz

/-- The same for the entries of the error list. -/
theorem err_le_polynomial (hL : L.Exact) (M : Mat n n ℝ) (hM : IsUnit M.det) (he : 0 ≤ cfg.eps) {r : Out n ℝ}
    (h : solveMat L cfg M b x = .ok r) {j : ℕ} {e : ℝ} (hj : r.err[j]? = some e) {q : ℝ[X]} (h0 : q.eval 0 = 1) (hq : q.natDegree ≤ j) :
    e ≤ norm2 (aeval M q *ᵥ (b - M *ᵥ x)) := by
  have hb := C49_partial L cfg b x hL M hM he h
  have hlen := (C46_shape L cfg _ b x h).1
  have hjk : j ≤ r.k := by
    obtain ⟨hlt, _⟩ := List.getElem?_eq_some_iff.mp hj
    omega
  obtain ⟨r', hr', hx⟩ := (C45_residual L cfg b x hL M h hb).1 j hjk
  have hp : solveMat L { cfg with kMax := j } M b x = .ok (finish L cfg x (S L cfg (M *ᵥ ·) b x j)) := solve_prefix L cfg _ b x h hjk
  rw [hr'] at hp
  injection hp with hp
  have hk : r'.k = j := by rw [hp]; simp [finish]
  rw [hj] at hx
  injection hx with hx
  rw [hx]
  exact C111_polynomial L { cfg with kMax := j } b x hL M hr' (C49_partial L { cfg with kMax := j } b x hL M hM he hr') h0 (by omega)

/-- **C111** If a polynomial with a constant term other than 0 annihilates the initial residual then GMRES needs at most as many iterations as
its degree (for example, two for a symmetric matrix with two eigenvalues, however large the matrix). -/
theorem C111_degree (hL : L.Exact) (M : Mat n n ℝ) (hM : IsUnit M.det) (he : 0 ≤ cfg.eps) {r : Out n ℝ}
    (h : solveMat L cfg M b x = .ok r) {p : ℝ[X]} (h0 : p.eval 0 ≠ 0) (hp : aeval M p *ᵥ (b - M *ᵥ x) = 0) :
    r.k ≤ p.natDegree ∧ ((p.natDegree : ℤ) ≤ cfg.kMax → norm2 (b - M *ᵥ r.x) ≤ cfg.eps * norm2 b) := by
  obtain ⟨hlen, _, hkm, hkn, _, hcont, hstop⟩ := C46_shape L cfg _ b x h
  have hb := C49_partial L cfg b x hL M hM he h
  have hlast := (C45_residual L cfg b x hL M h hb).2
  have hq0 : (C (p.eval 0)⁻¹ * p).eval 0 = 1 := by rw [eval_mul, eval_C, inv_mul_cancel₀ h0]
  have hqd : (C (p.eval 0)⁻¹ * p).natDegree ≤ p.natDegree := natDegree_C_mul_le _ _
  have hqz : aeval M (C (p.eval 0)⁻¹ * p) *ᵥ (b - M *ᵥ x) = 0 := by
    rw [map_mul, aeval_C, Algebra.algebraMap_eq_smul_one, smul_mul_assoc, one_mul, smul_mulVec, hp, smul_zero]
  have hb0 : 0 ≤ cfg.eps * norm2 b := mul_nonneg he (norm2_nonneg b)
  have hk : r.k ≤ p.natDegree := by
    by_contra hcon
    push Not at hcon
    have hlt : p.natDegree < r.err.dropLast.length := by rw [List.length_dropLast, hlen]; omega
    have hm := hcont _ (List.getElem_mem hlt)
    rw [ltb_real, vnorm_norm2, List.getElem_dropLast] at hm
    have h1 := err_le_polynomial L cfg b x hL M hM he h (List.getElem?_eq_getElem (by omega)) hq0 hqd
    rw [hqz, norm2, WithLp.toLp_zero, norm_zero] at h1
    linarith
  refine ⟨hk, fun hkp => ?_⟩
  rcases hstop with h1 | h1 | h1
  · have hkd : r.k = p.natDegree := by omega
    have := C111_polynomial L cfg b x hL M h hb hq0 (by omega)
    rw [hqz, norm2, norm2, WithLp.toLp_zero, norm_zero] at this
    exact this.trans hb0
  · exact C48_solves L cfg b x hL M hM he (by omega) h
  · have := h1 _ hlast
    rwa [ltb_real_false, vnorm_norm2] at this

/-- **C111** Positive definite matrices, symmetric or not: the errors decay at least like `(1 - μ² / Λ²)^(j/2)`, whatever the number of
unknowns; hence the tolerance is met as soon as `k_max` is large enough for that. -/
theorem C111_rate (hL : L.Exact) (M : Mat n n ℝ) {μ Λ : ℝ} (hμ : 0 < μ) (hΛ : 0 < Λ) (hm : ∀ v, μ * (v ⬝ᵥ v) ≤ v ⬝ᵥ M *ᵥ v)
    (hM : ∀ v, norm2 (M *ᵥ v) ≤ Λ * norm2 v) (he : 0 ≤ cfg.eps) {r : Out n ℝ} (h : solveMat L cfg M b x = .ok r) :
    (∀ j e, r.err[j]? = some e → e ≤ √(1 - μ ^ 2 / Λ ^ 2) ^ j * norm2 (b - M *ᵥ x)) ∧
    norm2 (b - M *ᵥ r.x) ≤ √(1 - μ ^ 2 / Λ ^ 2) ^ r.k * norm2 (b - M *ᵥ x) ∧
    ∀ e, √(1 - μ ^ 2 / Λ ^ 2) ^ cfg.kMax.toNat * norm2 (b - M *ᵥ x) ≤ e → cfg.eps * norm2 b ≤ e → norm2 (b - M *ᵥ r.x) ≤ e := by
  have hdet := isUnit_det_of_coercive M hμ hm
  have hb := C49_partial L cfg b x hL M hdet he h
  have hlast := (C45_residual L cfg b x hL M h hb).2
  have h2 : norm2 (b - M *ᵥ r.x) ≤ √(1 - μ ^ 2 / Λ ^ 2) ^ r.k * norm2 (b - M *ᵥ x) :=
    (C111_polynomial L cfg b x hL M h hb (damped_poly _ _).1 (damped_poly _ _).2).trans (damped_pow M hμ hΛ hm hM r.k _)
  refine ⟨fun j e hj => (err_le_polynomial L cfg b x hL M hdet he h hj (damped_poly _ _).1 (damped_poly _ _).2).trans
    (damped_pow M hμ hΛ hm hM j _), h2, fun e h3 h4 => ?_⟩
  rcases (C46_shape L cfg _ b x h).2.2.2.2.2.2 with h1 | h1 | h1
  · rw [← h1, Int.toNat_natCast] at h3
    exact h2.trans h3
  · exact (C48_solves L cfg b x hL M hdet he (by have := (C46_shape L cfg _ b x h).2.2.1; omega) h).trans h4
  · have := h1 _ hlast
    rw [ltb_real_false, vnorm_norm2] at this
    exact this.trans h4

/-- **C111** Symmetric positive definite matrices with eigenvalues between `l` and `u`: the errors decay at least like
`2 ((√u - √l) / (√u + √l))^j`. -/
theorem C111_symmetric (hL : L.Exact) (M : Mat n n ℝ) (hs : M.IsSymm) {l u : ℝ} (hl0 : 0 < l) (hlu : l < u)
    (hl : ∀ v, l * (v ⬝ᵥ v) ≤ v ⬝ᵥ M *ᵥ v) (hu : ∀ v, v ⬝ᵥ M *ᵥ v ≤ u * (v ⬝ᵥ v)) (he : 0 ≤ cfg.eps) {r : Out n ℝ}
    (h : solveMat L cfg M b x = .ok r) :
    (∀ j e, r.err[j]? = some e → e ≤ 2 * ((√u - √l) / (√u + √l)) ^ j * norm2 (b - M *ᵥ x)) ∧
    norm2 (b - M *ᵥ r.x) ≤ 2 * ((√u - √l) / (√u + √l)) ^ r.k * norm2 (b - M *ᵥ x) := by
  have hdet := isUnit_det_of_coercive M hl0 hl
  have hb := C49_partial L cfg b x hL M hdet he h
  have h0 : ∀ j : ℕ, 0 ≤ 2 * ((√u - √l) / (√u + √l)) ^ j := by
    intro j
    have := Real.sqrt_le_sqrt hlu.le
    have h3 : 0 ≤ √u - √l := by linarith
    positivity
  have key : ∀ j, norm2 (aeval M (chebResidual l u j) *ᵥ (b - M *ᵥ x)) ≤ 2 * ((√u - √l) / (√u + √l)) ^ j * norm2 (b - M *ᵥ x) :=
    fun j => symm_poly_le M hs hl hu (h0 j) (fun t h1 h2 => chebResidual_le hl0 hlu j h1 h2) _
  exact ⟨fun j e hj => (err_le_polynomial L cfg b x hL M hdet he h hj (chebResidual_poly hl0 hlu j).1 (chebResidual_poly hl0 hlu j).2).trans (key j),
    (C111_polynomial L cfg b x hL M h hb (chebResidual_poly hl0 hlu _).1 (chebResidual_poly hl0 hlu _).2).trans (key r.k)⟩

/-! ## No progress in general -/

/-- Cyclic shift: `(M v) i = v (i - 1)`. -/
def shiftMat (n : ℕ) : Mat (n + 1) (n + 1) ℝ := fun i j => if j + 1 = i then 1 else 0

/-- First unit vector. -/
def unit0 (n : ℕ) : Vec (n + 1) ℝ := fun i => if i = 0 then 1 else 0

theorem shiftMat_mulVec (v : Vec (n + 1) ℝ) (j : Fin (n + 1)) : (shiftMat n *ᵥ v) (j + 1) = v j := by
  unfold shiftMat mulVec dotProduct
  simp only [add_left_inj]
  rw [Finset.sum_eq_single j] <;> simp +contextual

theorem shiftMat_det : IsUnit (shiftMat n).det := by
  rw [isUnit_iff_ne_zero]
  intro h
  obtain ⟨v, hv, h0⟩ := Matrix.exists_mulVec_eq_zero_iff.mpr h
  refine hv (funext fun j => ?_)
  have := shiftMat_mulVec v j
  rw [h0] at this
  exact this.symm

/-- The Krylov space of the first unit vector consists of vectors with zeros from entry `k` on. -/
theorem shift_krylov {k : ℕ} (hk : k ≤ n) {v : Vec (n + 1) ℝ} (hv : v ∈ krylov (shiftMat n) (unit0 n) k) :
    v (Fin.last n) = 0 := by
  have hpow : ∀ i : ℕ, i ≤ n → ∀ j : Fin (n + 1), (shiftMat n ^ i *ᵥ unit0 n) j = if (j : ℕ) = i then 1 else 0 := by
    intro i
    induction i with
    | zero => intro _ j; rw [pow_zero, one_mulVec]; exact if_congr Fin.ext_iff rfl rfl
    | succ i ih =>
      intro hi j
      rw [pow_succ', ← mulVec_mulVec]
      have hj : j = (j - 1) + 1 := by simp
      rw [hj, shiftMat_mulVec, ih (by omega), ← hj]
      refine if_congr ?_ rfl rfl
      rcases eq_or_ne j 0 with h0 | h0
      · subst h0
        have : ((0 : Fin (n + 1)) - 1 : Fin (n + 1)) = Fin.last n := by rw [zero_sub, eq_comm, ← sub_eq_zero, sub_neg_eq_add, Fin.last_add_one]
        rw [this]
        simp
        omega
      · have : ((j - 1 : Fin (n + 1)) : ℕ) = j - 1 := Fin.val_sub_one_of_ne_zero h0
        have h1 : (j : ℕ) ≠ 0 := fun h => h0 (Fin.ext h)
        omega
  unfold krylov at hv
  induction hv using Submodule.span_induction with
  | mem w hw =>
    obtain ⟨i, rfl⟩ := hw
    dsimp only
    rw [hpow i (by omega), if_neg (by simp; omega)]
  | zero => rfl
  | add v w _ _ h1 h2 => rw [Pi.add_apply, h1, h2, add_zero]
  | smul c v _ h1 => rw [Pi.smul_apply, h1, smul_zero]

/-- **C111** Without definiteness fewer iterations than unknowns may achieve nothing: for the cyclic shift (an orthogonal matrix) of any size
the residual is not reduced at all until the last iteration. -/
theorem C111_stall (hL : L.Exact) (cfg : Config ℝ) (he : 0 ≤ cfg.eps) (h0 : 0 ≤ cfg.kMax) (hk : cfg.kMax ≤ n) :
    IsUnit (shiftMat n).det ∧
    ∃ r, solveMat L cfg (shiftMat n) (unit0 n) 0 = .ok r ∧ norm2 (unit0 n - shiftMat n *ᵥ r.x) = norm2 (unit0 n) ∧
      (cfg.eps < 1 → (r.k : ℤ) = cfg.kMax) := by
  refine ⟨shiftMat_det, ?_⟩
  obtain ⟨r, h⟩ := (C46_total L cfg (shiftMat n *ᵥ ·) (unit0 n) 0).2 h0
  have h' : solveMat L cfg (shiftMat n) (unit0 n) 0 = .ok r := h
  have hb := C49_partial L cfg _ _ hL (shiftMat n) shiftMat_det he h'
  have hkr := C47_krylov L cfg _ _ hL (shiftMat n) h' hb
  rw [mulVec_zero, sub_zero, sub_zero] at hkr
  have hsh := C46_shape L cfg _ _ _ h
  have hz := shift_krylov (by have := hsh.2.2.1; omega) hkr.1
  have h1 : norm2 (unit0 n) = 1 := by
    have : norm2 (unit0 n) ^ 2 = 1 := by
      rw [norm2_sq]
      simp [unit0, dotProduct]
    exact (pow_eq_one_iff_of_nonneg (norm2_nonneg _) two_ne_zero).mp this
  have hge : 1 ≤ norm2 (unit0 n - shiftMat n *ᵥ r.x) := by
    have hc : (unit0 n - shiftMat n *ᵥ r.x) 0 = 1 := by
      have := shiftMat_mulVec r.x (Fin.last n)
      rw [Fin.last_add_one] at this
      rw [Pi.sub_apply, this, hz]
      simp [unit0]
    have := PiLp.norm_apply_le (WithLp.toLp 2 (unit0 n - shiftMat n *ᵥ r.x)) 0
    rw [show (WithLp.toLp 2 (unit0 n - shiftMat n *ᵥ r.x)).ofLp 0 = 1 from hc] at this
    simpa [norm2] using this
  have hle : norm2 (unit0 n - shiftMat n *ᵥ r.x) ≤ 1 := by
    have := hkr.2 0 (by rw [sub_zero]; exact Submodule.zero_mem _)
    rwa [mulVec_zero, sub_zero, h1] at this
  have hnorm := le_antisymm hle hge
  refine ⟨r, h', by rw [hnorm, h1], fun heps => ?_⟩
  rcases hsh.2.2.2.2.2.2 with h2 | h2 | h2
  · exact h2
  · have := hsh.2.2.1
    omega
  · have := h2 _ (C45_residual L cfg _ _ hL (shiftMat n) h' hb).2
    rw [ltb_real_false, vnorm_norm2, hnorm, h1] at this
    linarith

/-! ## Concrete cases -/

/-- Positive definite, not symmetric; `μ = 2`, `Λ = √5 ≤ 9/4`. -/
def spiral : Mat 2 2 ℝ := !![2, 1; -1, 2]

/-- **C111** for one iteration on `spiral`: the error is less than half of the initial one. -/
example (tri : Bool) : ∃ r, solveMat realDense { exCfg tri with kMax := 1 } spiral ![1, 0] 0 = .ok r ∧
    norm2 (![1, 0] - spiral *ᵥ r.x) ≤ √(1 - 2 ^ 2 / (9 / 4) ^ 2) * norm2 (![1, 0] - spiral *ᵥ 0) := by
  obtain ⟨r, hr⟩ := (C46_total realDense { exCfg tri with kMax := 1 } (spiral *ᵥ ·) ![1, 0] 0).2 (by simp)
  have hr' : solveMat realDense { exCfg tri with kMax := 1 } spiral ![1, 0] 0 = .ok r := hr
  refine ⟨r, hr', ?_⟩
  have h := C111_rate realDense { exCfg tri with kMax := 1 } ![1, 0] 0 realDense_exact spiral (μ := 2) (Λ := 9 / 4) (by norm_num) (by norm_num)
    (fun v => by simp [spiral, dotProduct, mulVec, Fin.sum_univ_two]; nlinarith)
    (fun v => by
      refine abs_le_of_sq_le_sq' ?_ (by have := norm2_nonneg v; positivity) |>.2
      rw [mul_pow, norm2_sq, norm2_sq]
      simp [spiral, dotProduct, mulVec, Fin.sum_univ_two]
      nlinarith [sq_nonneg (v 0), sq_nonneg (v 1)])
    (by simp [exCfg]) hr'
  refine h.2.2 _ (by simp) (by simp [exCfg]; have := norm2_nonneg (![1, 0] : Vec 2 ℝ); positivity)

/-- Eigenvalues 1 and 4. -/
def diag14 : Mat 2 2 ℝ := !![1, 0; 0, 4]

/-- **C111** for `diag14`: the errors decay at least like `2 / 3^j`, and the second iteration finishes. -/
example (tri : Bool) (b : Vec 2 ℝ) : ∃ r, solveMat realDense (exCfg tri) diag14 b 0 = .ok r ∧ r.k ≤ 2 ∧
    ∀ j e, r.err[j]? = some e → e ≤ 2 * ((2 - 1) / (2 + 1)) ^ j * norm2 (b - diag14 *ᵥ 0) := by
  obtain ⟨r, hr⟩ := (C46_total realDense (exCfg tri) (diag14 *ᵥ ·) b 0).2 (by simp [exCfg])
  have hr' : solveMat realDense (exCfg tri) diag14 b 0 = .ok r := hr
  have h := C111_symmetric realDense (exCfg tri) b 0 realDense_exact diag14 (by unfold diag14 Matrix.IsSymm; ext i j; fin_cases i <;> fin_cases j <;> rfl)
    (l := 1) (u := 4) (by norm_num) (by norm_num)
    (fun v => by simp [diag14, dotProduct, mulVec, Fin.sum_univ_two]; nlinarith [sq_nonneg (v 1)])
    (fun v => by simp [diag14, dotProduct, mulVec, Fin.sum_univ_two]; nlinarith [sq_nonneg (v 0)])
    (by simp [exCfg]) hr'
  rw [show √(4 : ℝ) = 2 by rw [show (4 : ℝ) = 2 ^ 2 by norm_num]; exact Real.sqrt_sq (by norm_num), Real.sqrt_one] at h
  refine ⟨r, hr', ?_, h.1⟩
  have hdet : IsUnit diag14.det := by rw [diag14, Matrix.det_fin_two_of]; norm_num
  have hd := C111_degree realDense (exCfg tri) b 0 realDense_exact diag14 hdet (by simp [exCfg]) hr' (p := (X - C 1) * (X - C 4))
    (by simp) (by
      have : aeval diag14 ((X - C 1) * (X - C 4) : ℝ[X]) = 0 := by
        rw [map_mul, map_sub, map_sub, aeval_X, aeval_C, aeval_C]
        unfold diag14
        ext i j
        fin_cases i <;> fin_cases j <;> simp [Matrix.mul_apply, Fin.sum_univ_two, Algebra.algebraMap_eq_smul_one]
      rw [this, zero_mulVec])
  refine hd.1.trans ?_
  refine natDegree_mul_le.trans ?_
  rw [natDegree_X_sub_C, natDegree_X_sub_C]

end Nmpc.Gmres
