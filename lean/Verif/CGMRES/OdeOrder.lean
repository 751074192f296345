import Mathlib.Analysis.Calculus.MeanValue
import Mathlib.Analysis.Calculus.ContDiff.Operations
import Mathlib.Analysis.Calculus.Deriv.Comp
import Mathlib.Analysis.Calculus.Deriv.Pow
import Mathlib.Analysis.Calculus.Deriv.Mul
import Mathlib.Analysis.Calculus.Deriv.Add
import Mathlib.Analysis.Normed.Module.FiniteDimension
import Mathlib.Analysis.Asymptotics.Lemmas
import Mathlib.Tactic.Module
import Mathlib.Tactic.Ring
import Mathlib.Tactic.NormNum
import Mathlib.Tactic.Linarith
import Mathlib.Tactic.Positivity
import Mathlib.Analysis.SpecialFunctions.Exp

/-!
# Order of the Euler and Runge-Kutta steps for autonomous systems (for C117)

Everything here is about a vector field `g` on a finite-dimensional normed space; `OdeOrderProps.lean` applies it to
`EulerOdeSolver` and `RungeKuttaOdeSolver` with `g (t, x, u) = (1, f t x u, 0)`.
-/

namespace Nmpc.Cgmres.OdeOrder

open Set Filter Asymptotics Topology

variable {E : Type*} [NormedAddCommGroup E] [NormedSpace ℝ E]

/-- The classical Runge-Kutta step for `p' = g p`. -/
noncomputable def rkStep (g : E → E) (p : E) (h : ℝ) : E :=
  p + (h / 6) • (g p + (2 : ℝ) • g (p + (h / 2) • g p) + (2 : ℝ) • g (p + (h / 2) • g (p + (h / 2) • g p))
    + g (p + h • g (p + (h / 2) • g (p + (h / 2) • g p))))

/-- The iterated derivatives of the solutions of `p' = g p`, as functions of the state. -/
noncomputable def der (g : E → E) : ℕ → E → E
  | 0, p => p
  | k + 1, p => fderiv ℝ (der g k) p (g p)

theorem der_one (g : E → E) (p : E) : der g 1 p = g p := by
  have h : der g 0 = id := rfl
  show fderiv ℝ (der g 0) p (g p) = g p
  rw [h, fderiv_id]; rfl

theorem der_contDiff {g : E → E} {N : ℕ} (hg : ContDiff ℝ N g) : ∀ k ≤ N + 1, ContDiff ℝ ((N + 1 - k : ℕ) : ℕ∞) (der g k) := by
  intro k
  induction k with
  | zero => intro _; exact contDiff_id
  | succ k ih =>
    intro hk
    have h1 := ih (by omega)
    have h2 : ContDiff ℝ ((N + 1 - (k + 1) : ℕ) : ℕ∞) (fderiv ℝ (der g k)) := by
      refine h1.fderiv_right (m := ((N + 1 - (k + 1) : ℕ) : ℕ∞)) ?_
      have : (N + 1 - k : ℕ) = (N + 1 - (k + 1)) + 1 := by omega
      rw [this]; norm_cast
    have h3 : ContDiff ℝ ((N + 1 - (k + 1) : ℕ) : ℕ∞) g := by
      refine hg.of_le ?_
      have : N + 1 - (k + 1) ≤ N := by omega
      exact_mod_cast this
    exact h2.clm_apply h3

/-- Mean value estimate on `[0, h]`. -/
theorem mvt_pow {F F' : ℝ → E} {h C : ℝ} {k : ℕ} (hC : 0 ≤ C)
    (hF : ∀ s ∈ Icc 0 h, HasDerivWithinAt F (F' s) (Icc 0 h) s) (hb : ∀ s ∈ Icc 0 h, ‖F' s‖ ≤ C * s ^ k) :
    ∀ s ∈ Icc 0 h, ‖F s - F 0‖ ≤ C * s ^ (k + 1) := by
  intro s hs
  have hsub : Icc 0 s ⊆ Icc 0 h := Icc_subset_Icc_right hs.2
  have := (convex_Icc (0 : ℝ) s).norm_image_sub_le_of_norm_hasDerivWithin_le (f := F) (f' := F') (C := C * s ^ k)
    (fun x hx => (hF x (hsub hx)).mono hsub)
    (fun x hx => (hb x (hsub hx)).trans (mul_le_mul_of_nonneg_left (pow_le_pow_left₀ hx.1 hx.2 k) hC))
    (left_mem_Icc.2 hs.1) (right_mem_Icc.2 hs.1)
  rw [sub_zero, Real.norm_of_nonneg hs.1] at this
  calc _ ≤ _ := this
    _ = _ := by ring

/-- Taylor's formula on `[0, h]`. -/
theorem taylor {Y : ℕ → ℝ → E} {h M : ℝ} {K : ℕ} (hh : 0 ≤ h)
    (hY : ∀ k < K, ∀ s ∈ Icc 0 h, HasDerivWithinAt (Y k) (Y (k + 1) s) (Icc 0 h) s)
    (hb : ∀ k ≤ K, ∀ s ∈ Icc 0 h, ‖Y k s‖ ≤ M) :
    ∀ j k, k + j ≤ K → ∀ s ∈ Icc 0 h, ‖Y k s - ∑ i ∈ Finset.range j, (s ^ i / (i.factorial : ℝ)) • Y (k + i) 0‖ ≤ M * s ^ j := by
  have hM : 0 ≤ M := (norm_nonneg _).trans (hb 0 (by omega) 0 (left_mem_Icc.2 hh))
  intro j
  induction j with
  | zero => intro k hk s hs; simpa using hb k (by omega) s hs
  | succ j ih =>
    intro k hk s hs
    have hd : ∀ s ∈ Icc 0 h, HasDerivWithinAt
        (fun s => Y k s - ∑ i ∈ Finset.range (j + 1), (s ^ i / (i.factorial : ℝ)) • Y (k + i) 0)
        (Y (k + 1) s - ∑ i ∈ Finset.range j, (s ^ i / (i.factorial : ℝ)) • Y (k + 1 + i) 0) (Icc 0 h) s := by
      intro s hs
      refine (hY k (by omega) s hs).sub ?_
      have h1 : HasDerivWithinAt (fun s : ℝ => ∑ i ∈ Finset.range (j + 1), (s ^ i / (i.factorial : ℝ)) • Y (k + i) 0)
          (∑ i ∈ Finset.range (j + 1), (((i : ℝ) * s ^ (i - 1)) / (i.factorial : ℝ)) • Y (k + i) 0) (Icc 0 h) s := by
        refine HasDerivWithinAt.fun_sum fun i _ => ?_
        exact (((hasDerivAt_pow i s).div_const _).smul_const _).hasDerivWithinAt
      convert h1 using 1
      rw [Finset.sum_range_succ']
      simp only [Nat.cast_zero, zero_mul, zero_div, zero_smul, add_zero, Nat.add_sub_cancel]
      refine Finset.sum_congr rfl fun i _ => ?_
      have : ((i : ℝ) + 1) ≠ 0 := by positivity
      have : (i.factorial : ℝ) ≠ 0 := by positivity
      rw [show k + 1 + i = k + (i + 1) by ring, Nat.factorial_succ]
      congr 1
      push_cast
      field_simp
    have := mvt_pow hM hd (fun s hs => ih (k + 1) (by omega) s hs) s hs
    have h0 : Y k 0 - ∑ i ∈ Finset.range (j + 1), ((0 : ℝ) ^ i / (i.factorial : ℝ)) • Y (k + i) 0 = 0 := by
      rw [Finset.sum_range_succ']
      simp
    simpa only [h0, sub_zero] using this

/-- A solution of `p' = g p` on an interval `[0, h]` that stays in the ball of radius `R`. -/
structure Run (g : E → E) (R : ℝ) where
  y : ℝ → E
  h : ℝ
  nonneg : 0 ≤ h
  sol : ∀ s ∈ Icc 0 h, HasDerivWithinAt y (g (y s)) (Icc 0 h) s
  bd : ∀ s ∈ Icc 0 h, ‖y s‖ ≤ R

/-- Short intervals. -/
def short (g : E → E) (R : ℝ) : Filter (Run g R) := comap Run.h (𝓝 0)

theorem der_hasDeriv {g : E → E} {R : ℝ} {N : ℕ} (hg : ContDiff ℝ N g) (r : Run g R) {k : ℕ} (hk : k < N + 1) {s : ℝ}
    (hs : s ∈ Icc 0 r.h) :
    HasDerivWithinAt (fun s => der g k (r.y s)) (der g (k + 1) (r.y s)) (Icc 0 r.h) s := by
  have h1 := der_contDiff hg k hk.le
  have h2 : DifferentiableAt ℝ (der g k) (r.y s) :=
    (h1.differentiable (by
      have : N + 1 - k ≠ 0 := by omega
      exact_mod_cast this)).differentiableAt
  exact h2.hasFDerivAt.comp_hasDerivWithinAt s (r.sol s hs)

set_option linter.unusedSectionVars false

variable [FiniteDimensional ℝ E]

theorem bounded_on_ball {F : Type*} [NormedAddCommGroup F] {f : E → F} (hf : Continuous f) (R : ℝ) :
    ∃ M, 0 ≤ M ∧ ∀ p : E, ‖p‖ ≤ R → ‖f p‖ ≤ M := by
  have := FiniteDimensional.proper_real E
  obtain ⟨M, hM⟩ := (isCompact_closedBall (0 : E) R).exists_bound_of_continuousOn hf.continuousOn
  refine ⟨max M 0, le_max_right _ _, fun p hp => (hM p ?_).trans (le_max_left _ _)⟩
  simpa using hp

theorem der_bound {g : E → E} {N : ℕ} (hg : ContDiff ℝ N g) (R : ℝ) :
    ∃ M, 0 ≤ M ∧ ∀ k ≤ N + 1, ∀ p : E, ‖p‖ ≤ R → ‖der g k p‖ ≤ M := by
  have : ∀ K ≤ N + 1, ∃ M, 0 ≤ M ∧ ∀ k ≤ K, ∀ p : E, ‖p‖ ≤ R → ‖der g k p‖ ≤ M := by
    intro K
    induction K with
    | zero =>
      intro _
      obtain ⟨M, h0, hM⟩ := bounded_on_ball (der_contDiff hg 0 (by omega)).continuous R
      exact ⟨M, h0, fun k hk => by obtain rfl : k = 0 := by omega
                                   exact hM⟩
    | succ K ih =>
      intro hK
      obtain ⟨M, h0, hM⟩ := ih (by omega)
      obtain ⟨M', h0', hM'⟩ := bounded_on_ball (der_contDiff hg (K + 1) hK).continuous R
      refine ⟨max M M', le_max_of_le_left h0, fun k hk p hp => ?_⟩
      rcases Nat.lt_or_ge k (K + 1) with h | h
      · exact (hM k (by omega) p hp).trans (le_max_left _ _)
      · obtain rfl : k = K + 1 := by omega
        exact (hM' p hp).trans (le_max_right _ _)
  exact this (N + 1) le_rfl

/-- Taylor's formula along the solutions, uniformly in all runs. -/
theorem run_taylor {g : E → E} {N : ℕ} (hg : ContDiff ℝ N g) (R : ℝ) :
    ∃ M, 0 ≤ M ∧ ∀ (r : Run g R) (j k : ℕ), k + j ≤ N + 1 → ∀ s ∈ Icc 0 r.h,
      ‖der g k (r.y s) - ∑ i ∈ Finset.range j, (s ^ i / (i.factorial : ℝ)) • der g (k + i) (r.y 0)‖ ≤ M * s ^ j := by
  obtain ⟨M, h0, hM⟩ := der_bound hg R
  refine ⟨M, h0, fun r => ?_⟩
  exact taylor (Y := fun k s => der g k (r.y s)) r.nonneg (fun k hk s hs => der_hasDeriv hg r hk hs)
    (fun k hk s hs => hM k hk _ (r.bd s hs))

/-- Second-order remainder of a twice differentiable vector field on a ball, and Lipschitz derivative. -/
theorem quad_bound {g : E → E} (hg : ContDiff ℝ 2 g) (R : ℝ) :
    ∃ M, 0 ≤ M ∧ (∀ p q : E, ‖p‖ ≤ R → ‖q‖ ≤ R → ‖fderiv ℝ g q - fderiv ℝ g p‖ ≤ M * ‖q - p‖) ∧
      ∀ p q : E, ‖p‖ ≤ R → ‖q‖ ≤ R → ‖g q - g p - fderiv ℝ g p (q - p)‖ ≤ M * ‖q - p‖ ^ 2 := by
  have h1 : ContDiff ℝ 1 (fderiv ℝ g) := hg.fderiv_right (by norm_num)
  obtain ⟨M, h0, hM⟩ := bounded_on_ball (h1.continuous_fderiv (by norm_num)) R
  have hc : Convex ℝ (Metric.closedBall (0 : E) R) := convex_closedBall 0 R
  have hL : ∀ p q : E, ‖p‖ ≤ R → ‖q‖ ≤ R → ‖fderiv ℝ g q - fderiv ℝ g p‖ ≤ M * ‖q - p‖ := fun p q hp hq =>
    hc.norm_image_sub_le_of_norm_fderiv_le (fun x _ => (h1.differentiable (by norm_num)).differentiableAt)
      (fun x hx => hM x (by simpa using hx)) (by simpa using hp) (by simpa using hq)
  refine ⟨M, h0, hL, fun p q hp hq => ?_⟩
  have hs : Convex ℝ (segment ℝ p q) := convex_segment p q
  have hin : ∀ x ∈ segment ℝ p q, ‖x‖ ≤ R := by
    intro x hx
    have := (hc.segment_subset (by simpa using hp) (by simpa using hq)) hx
    simpa using this
  have := hs.norm_image_sub_le_of_norm_fderiv_le' (f := g) (φ := fderiv ℝ g p) (C := M * ‖q - p‖)
    (fun x _ => (hg.differentiable (by norm_num)).differentiableAt)
    (fun x hx => (hL p x hp (hin x hx)).trans (mul_le_mul_of_nonneg_left ?_ h0))
    (left_mem_segment ℝ p q) (right_mem_segment ℝ p q)
  · calc _ ≤ _ := this
      _ = _ := by ring
  · obtain ⟨a, b, ha, hb, hab, rfl⟩ := hx
    have : a • p + b • q - p = b • (q - p) := by
      rw [show a = 1 - b by linarith]; module
    rw [this, norm_smul, Real.norm_of_nonneg hb]
    have : b ≤ 1 := by linarith
    nlinarith [norm_nonneg (q - p)]

section order4

variable {g : E → E} {R : ℝ}

/-- Value at the fraction `c` of the interval. -/
def Run.at (r : Run g R) (c : ℝ) : E := r.y (c * r.h)

theorem taylor_O (hg : ContDiff ℝ 4 g) {c : ℝ} (hc : c ∈ Icc (0 : ℝ) 1) (j k : ℕ) (hk : k + j ≤ 5) :
    (fun r : Run g R => der g k (r.at c) - ∑ i ∈ Finset.range j, ((c * r.h) ^ i / (i.factorial : ℝ)) • der g (k + i) (r.y 0))
      =O[short g R] fun r => r.h ^ j := by
  obtain ⟨M, h0, hM⟩ := run_taylor (N := 4) hg R
  refine IsBigO.of_bound M (Eventually.of_forall fun r => ?_)
  have h1 : c * r.h ∈ Icc 0 r.h := ⟨mul_nonneg hc.1 r.nonneg, by nlinarith [hc.2, r.nonneg]⟩
  refine (hM r j k hk _ h1).trans ?_
  rw [Real.norm_of_nonneg (pow_nonneg r.nonneg _)]
  exact mul_le_mul_of_nonneg_left (pow_le_pow_left₀ h1.1 h1.2 j) h0

theorem short_h : Tendsto (fun r : Run g R => r.h) (short g R) (𝓝 0) := tendsto_comap

theorem pow_O {i j : ℕ} (h : i ≤ j) : (fun r : Run g R => r.h ^ j) =O[short g R] fun r => r.h ^ i := by
  have h1 : ∀ᶠ r : Run g R in short g R, r.h < 1 := short_h.eventually (gt_mem_nhds one_pos)
  refine IsBigO.of_bound 1 (h1.mono fun r hr => ?_)
  rw [Real.norm_of_nonneg (pow_nonneg r.nonneg _), Real.norm_of_nonneg (pow_nonneg r.nonneg _), one_mul]
  exact pow_le_pow_of_le_one r.nonneg hr.le h

theorem at_bd (r : Run g R) {c : ℝ} (hc : c ∈ Icc (0 : ℝ) 1) : ‖r.at c‖ ≤ R :=
  r.bd _ ⟨mul_nonneg hc.1 r.nonneg, by nlinarith [hc.2, r.nonneg]⟩

theorem bounded_O {F : Type*} [NormedAddCommGroup F] {f : E → F} (hf : Continuous f) {c : ℝ} (hc : c ∈ Icc (0 : ℝ) 1) :
    (fun r : Run g R => f (r.at c)) =O[short g R] fun r => r.h ^ 0 := by
  obtain ⟨M, h0, hM⟩ := bounded_on_ball hf R
  exact IsBigO.of_bound M (Eventually.of_forall fun r => by simpa using hM _ (at_bd r hc))

theorem der_O (hg : ContDiff ℝ 4 g) (k : ℕ) (hk : k ≤ 5) :
    (fun r : Run g R => der g k (r.y 0)) =O[short g R] fun r => r.h ^ 0 := by
  have := taylor_O (R := R) hg (c := 0) ⟨le_rfl, zero_le_one⟩ 0 k (by omega)
  simpa [Run.at] using this

theorem clm_O {A : Run g R → E →L[ℝ] E} {v : Run g R → E} {i j : ℕ}
    (hA : A =O[short g R] fun r => r.h ^ i) (hv : v =O[short g R] fun r => r.h ^ j) :
    (fun r => A r (v r)) =O[short g R] fun r => r.h ^ (i + j) := by
  refine IsBigO.trans (g := fun r => ‖A r‖ * ‖v r‖) (IsBigO.of_bound 1 (Eventually.of_forall fun r => ?_)) ?_
  · rw [one_mul, Real.norm_of_nonneg (by positivity)]
    exact (A r).le_opNorm _
  · simpa only [pow_add] using hA.norm_left.mul hv.norm_left

theorem smul_O {v : Run g R → E} {j : ℕ} (hv : v =O[short g R] fun r => r.h ^ j) (c : ℝ) (i : ℕ) :
    (fun r => (c * r.h ^ i) • v r) =O[short g R] fun r => r.h ^ (i + j) := by
  have h1 : (fun r : Run g R => c * r.h ^ i) =O[short g R] fun r => r.h ^ i :=
    (isBigO_refl _ _).const_mul_left c
  simpa only [pow_add, smul_eq_mul] using h1.smul hv

theorem quad_O (hg : ContDiff ℝ 4 g) {c : ℝ} (hc : c ∈ Icc (0 : ℝ) 1) {z : Run g R → E}
    (hz : (fun r => z r - r.at c) =O[short g R] fun r => r.h ^ 2) :
    (fun r => g (z r) - der g 1 (r.at c) - fderiv ℝ g (r.at c) (z r - r.at c)) =O[short g R] fun r => r.h ^ 4 := by
  obtain ⟨M, h0, -, hM⟩ := quad_bound (hg.of_le (by norm_num) : ContDiff ℝ 2 g) (R + 1)
  have hev : ∀ᶠ r in short g R, ‖z r - r.at c‖ < 1 := by
    have h1 : Tendsto (fun r : Run g R => r.h ^ 2) (short g R) (𝓝 0) := by
      simpa using (short_h (g := g) (R := R)).pow 2
    have := (hz.trans_tendsto h1).norm
    rw [norm_zero] at this
    exact this.eventually (gt_mem_nhds one_pos)
  refine IsBigO.trans (g := fun r => ‖z r - r.at c‖ ^ 2) (IsBigO.of_bound M (hev.mono fun r hr => ?_)) ?_
  · rw [Real.norm_of_nonneg (by positivity), der_one]
    have h1 := at_bd r hc
    refine hM _ _ (h1.trans (by linarith)) ?_
    calc ‖z r‖ = ‖r.at c + (z r - r.at c)‖ := by congr 1; abel
      _ ≤ _ := norm_add_le _ _
      _ ≤ _ := by linarith
  · have := hz.norm_left.pow 2
    simpa only [← pow_mul] using this

/-- **Local error of the Runge-Kutta step**, uniformly for all solutions in a ball: fifth order in the step length. -/
theorem rk_local_O (hg : ContDiff ℝ 4 g) :
    (fun r : Run g R => rkStep g (r.y 0) r.h - r.y r.h) =O[short g R] fun r => r.h ^ 5 := by
  have hh : (1 / 2 : ℝ) ∈ Icc (0 : ℝ) 1 := by constructor <;> norm_num
  have h1 : (1 : ℝ) ∈ Icc (0 : ℝ) 1 := ⟨zero_le_one, le_rfl⟩
  -- Taylor expansions at the middle and at the end
  have T (c : ℝ) (hc : c ∈ Icc (0 : ℝ) 1) (j k : ℕ) (hk : k + j ≤ 5) := taylor_O (R := R) hg hc j k hk
  have E1 := T (1 / 2) hh 4 0 (by omega)
  have E1' := T (1 / 2) hh 2 0 (by omega)
  have E2 := T (1 / 2) hh 3 1 (by omega)
  have E2' := T (1 / 2) hh 4 1 (by omega)
  have E3 := T 1 h1 4 0 (by omega)
  have E3' := T 1 h1 5 0 (by omega)
  have E4' := T 1 h1 4 1 (by omega)
  have Y2 := der_O (R := R) hg 2 (by omega)
  have Y3 := der_O (R := R) hg 3 (by omega)
  -- the derivatives of the vector field
  have hcd : Continuous (fderiv ℝ g) := hg.continuous_fderiv (by norm_num)
  have hA : (fun r : Run g R => fderiv ℝ g (r.at (1 / 2))) =O[short g R] fun r => r.h ^ 0 := bounded_O hcd hh
  have hB : (fun r : Run g R => fderiv ℝ g (r.at 1)) =O[short g R] fun r => r.h ^ 0 := bounded_O hcd h1
  have hBA : (fun r : Run g R => fderiv ℝ g (r.at 1) - fderiv ℝ g (r.at (1 / 2))) =O[short g R] fun r => r.h ^ 1 := by
    obtain ⟨M, h0, hM, -⟩ := quad_bound (hg.of_le (by norm_num) : ContDiff ℝ 2 g) R
    have e1 : (fun r : Run g R => r.at 1 - r.at (1 / 2)) =O[short g R] fun r => r.h ^ 1 := by
      have := (T 1 h1 1 0 (by omega)).sub (T (1 / 2) hh 1 0 (by omega))
      refine this.congr_left fun r => ?_
      simp [der]
    refine IsBigO.trans (g := fun r => ‖r.at 1 - r.at (1 / 2)‖)
      (IsBigO.of_bound M (Eventually.of_forall fun r => ?_)) e1.norm_left
    rw [norm_norm]
    exact hM _ _ (at_bd r hh) (at_bd r h1)
  simp only [Finset.sum_range_succ, Finset.sum_range_zero, zero_add, add_zero, Nat.factorial, Nat.reduceAdd] at E1 E1' E2 E2' E3 E3' E4'
  push_cast at E1 E1' E2 E2' E3 E3' E4'
  simp only [der_one] at E1 E1' E2 E2' E3 E3' E4'
  have d0 : ∀ p, der g 0 p = p := fun _ => rfl
  simp only [d0] at E1 E1' E2 E2' E3 E3' E4'
  -- second stage
  let A : Run g R → E →L[ℝ] E := fun r => fderiv ℝ g (r.at (1 / 2))
  let B : Run g R → E →L[ℝ] E := fun r => fderiv ℝ g (r.at 1)
  let k1 : Run g R → E := fun r => g (r.y 0)
  let k2 : Run g R → E := fun r => g (r.y 0 + (r.h / 2) • k1 r)
  let k3 : Run g R → E := fun r => g (r.y 0 + (r.h / 2) • k2 r)
  let k4 : Run g R → E := fun r => g (r.y 0 + r.h • k3 r)
  have w2 : (fun r : Run g R => (r.y 0 + (r.h / 2) • k1 r) - r.at (1 / 2)) =O[short g R] fun r => r.h ^ 2 := by
    refine E1'.neg_left.congr_left fun r => ?_
    simp only [k1]
    module
  have q2 := quad_O hg hh w2
  have AY2 := clm_O hA Y2
  have AY3 := clm_O hA Y3
  have AAY2 := clm_O hA AY2
  have e2 : (fun r : Run g R => k2 r - (g (r.at (1 / 2)) - (1 / 8 * r.h ^ 2) • A r (der g 2 (r.y 0))
      - (1 / 48 * r.h ^ 3) • A r (der g 3 (r.y 0)))) =O[short g R] fun r => r.h ^ 4 := by
    refine (q2.sub (clm_O hA E1)).congr_left fun r => ?_
    simp only [k2, k1, A, der_one, map_sub, map_add, map_smul]
    module
  -- third stage
  have w3 : (fun r : Run g R => (r.y 0 + (r.h / 2) • k2 r) - r.at (1 / 2) - ((1 / 8 * r.h ^ 2) • der g 2 (r.y 0)
      + (1 / 24 * r.h ^ 3) • der g 3 (r.y 0) - (1 / 16 * r.h ^ 3) • A r (der g 2 (r.y 0)))) =O[short g R] fun r => r.h ^ 4 := by
    have s1 := (smul_O e2 (1 / 2) 1).trans (pow_O (i := 4) (by norm_num))
    have s2 := smul_O AY3 (1 / 96) 4
    have s3 := smul_O E2 (1 / 2) 1
    simp only [add_zero, Nat.reduceAdd] at s2 s3
    refine (((s1.sub s2).add s3).sub E1).congr_left fun r => ?_
    simp only [A]
    module
  have w3' : (fun r : Run g R => (r.y 0 + (r.h / 2) • k2 r) - r.at (1 / 2)) =O[short g R] fun r => r.h ^ 2 := by
    have s1 := smul_O Y2 (1 / 8) 2
    have s2 := (smul_O Y3 (1 / 24) 3).trans (pow_O (i := 2) (by norm_num))
    have s3 := (smul_O AY2 (1 / 16) 3).trans (pow_O (i := 2) (by norm_num))
    refine ((w3.trans (pow_O (by norm_num))).add ((s1.add s2).sub s3)).congr_left fun r => ?_
    simp only [A]
    module
  have q3 := quad_O hg hh w3'
  have e3 : (fun r : Run g R => k3 r - (g (r.at (1 / 2)) + (1 / 8 * r.h ^ 2) • A r (der g 2 (r.y 0))
      + (1 / 24 * r.h ^ 3) • A r (der g 3 (r.y 0)) - (1 / 16 * r.h ^ 3) • A r (A r (der g 2 (r.y 0)))))
      =O[short g R] fun r => r.h ^ 4 := by
    refine (q3.add (clm_O hA w3)).congr_left fun r => ?_
    simp only [k3, A, der_one, map_sub, map_add, map_smul]
    module
  -- fourth stage
  have w4 : (fun r : Run g R => (r.y 0 + r.h • k3 r) - r.at 1 - ((1 / 8 * r.h ^ 3) • A r (der g 2 (r.y 0))
      - (1 / 24 * r.h ^ 3) • der g 3 (r.y 0))) =O[short g R] fun r => r.h ^ 4 := by
    have s1 := (smul_O e3 1 1).trans (pow_O (i := 4) (by norm_num))
    have s2 := smul_O AY3 (1 / 24) 4
    have s3 := smul_O AAY2 (1 / 16) 4
    have s4 := smul_O E2 1 1
    simp only [add_zero, Nat.reduceAdd] at s2 s3 s4
    refine ((((s1.add s2).sub s3).add s4).sub E3).congr_left fun r => ?_
    simp only [A]
    module
  have w4' : (fun r : Run g R => (r.y 0 + r.h • k3 r) - r.at 1) =O[short g R] fun r => r.h ^ 2 := by
    have s1 := (smul_O AY2 (1 / 8) 3).trans (pow_O (i := 2) (by norm_num))
    have s2 := (smul_O Y3 (1 / 24) 3).trans (pow_O (i := 2) (by norm_num))
    refine ((w4.trans (pow_O (by norm_num))).add (s1.sub s2)).congr_left fun r => ?_
    simp only [A]
    module
  have q4 := quad_O hg h1 w4'
  have e4 : (fun r : Run g R => k4 r - (g (r.at 1) + (1 / 8 * r.h ^ 3) • B r (A r (der g 2 (r.y 0)))
      - (1 / 24 * r.h ^ 3) • B r (der g 3 (r.y 0)))) =O[short g R] fun r => r.h ^ 4 := by
    refine (q4.add (clm_O hB w4)).congr_left fun r => ?_
    simp only [k4, A, B, der_one, map_sub, map_add, map_smul]
    module
  -- the step
  have c1 := smul_O (clm_O hBA AY2) (1 / 48) 4
  have c2 := smul_O (clm_O hBA Y3) (1 / 144) 4
  have c3 := smul_O e2 (1 / 3) 1
  have c4 := smul_O e3 (1 / 3) 1
  have c5 := smul_O e4 (1 / 6) 1
  have c6 := smul_O E2' (2 / 3) 1
  have c7 := smul_O E4' (1 / 6) 1
  simp only [add_zero, Nat.reduceAdd] at c1 c2 c3 c4 c5 c6 c7
  refine (((((((c1.sub c2).add c3).add c4).add c5).add c6).add c7).sub E3').congr_left fun r => ?_
  have hend : r.y r.h = r.at 1 := by simp [Run.at]
  have hstep : rkStep g (r.y 0) r.h = r.y 0 + (r.h / 6) • (k1 r + (2 : ℝ) • k2 r + (2 : ℝ) • k3 r + k4 r) := rfl
  rw [hend, hstep]
  simp only [A, B, k1, sub_apply]
  module

end order4

/-- **Local error of the Euler step**: second order. -/
theorem euler_local {g : E → E} (hg : ContDiff ℝ 1 g) (R : ℝ) :
    ∃ C, 0 ≤ C ∧ ∀ r : Run g R, ‖r.y 0 + r.h • g (r.y 0) - r.y r.h‖ ≤ C * r.h ^ 2 := by
  obtain ⟨M, h0, hM⟩ := run_taylor (N := 1) hg R
  refine ⟨M, h0, fun r => ?_⟩
  have := hM r 2 0 (by omega) r.h (right_mem_Icc.2 r.nonneg)
  have e : -(r.y 0 + r.h • g (r.y 0) - r.y r.h) =
      der g 0 (r.y r.h) - ∑ i ∈ Finset.range 2, (r.h ^ i / (i.factorial : ℝ)) • der g (0 + i) (r.y 0) := by
    have d0 : ∀ p, der g 0 p = p := fun _ => rfl
    simp [Finset.sum_range_succ, der_one, d0]
  rw [← norm_neg, e]
  exact this

/-- **Local error of the Runge-Kutta step**, with constants. -/
theorem rk_local {g : E → E} (hg : ContDiff ℝ 4 g) (R : ℝ) :
    ∃ C δ, 0 ≤ C ∧ 0 < δ ∧ ∀ r : Run g R, r.h < δ → ‖rkStep g (r.y 0) r.h - r.y r.h‖ ≤ C * r.h ^ 5 := by
  obtain ⟨C, hC⟩ := (rk_local_O (R := R) hg).bound
  rw [short, eventually_comap] at hC
  obtain ⟨δ, hδ, h⟩ := Metric.eventually_nhds_iff.1 hC
  refine ⟨max C 0, δ, le_max_right _ _, hδ, fun r hr => ?_⟩
  have := h (y := r.h) (by rw [Real.dist_eq, sub_zero, abs_of_nonneg r.nonneg]; exact hr) r rfl
  rw [Real.norm_of_nonneg (pow_nonneg r.nonneg _)] at this
  exact this.trans (mul_le_mul_of_nonneg_right (le_max_left _ _) (pow_nonneg r.nonneg _))

/-- Lipschitz bound of a continuously differentiable map on a ball. -/
theorem lip_ball {F : Type*} [NormedAddCommGroup F] [NormedSpace ℝ F] {f : E → F} (hf : ContDiff ℝ 1 f) (R : ℝ) :
    ∃ K, 0 ≤ K ∧ ∀ p q : E, ‖p‖ ≤ R → ‖q‖ ≤ R → ‖f q - f p‖ ≤ K * ‖q - p‖ := by
  obtain ⟨K, h0, hK⟩ := bounded_on_ball (hf.continuous_fderiv (by norm_num)) R
  exact ⟨K, h0, fun p q hp hq => (convex_closedBall (0 : E) R).norm_image_sub_le_of_norm_fderiv_le
    (fun x _ => (hf.differentiable (by norm_num)).differentiableAt)
    (fun x hx => hK x (by simpa using hx)) (by simpa using hp) (by simpa using hq)⟩

/-- **Stability of the Runge-Kutta step** on a ball: it is Lipschitz with a constant `1 + O(h)`. -/
theorem rk_stable {g : E → E} (hg : ContDiff ℝ 1 g) (R : ℝ) :
    ∃ K δ, 0 ≤ K ∧ 0 < δ ∧ ∀ h, 0 ≤ h → h ≤ δ → ∀ p q : E, ‖p‖ ≤ R → ‖q‖ ≤ R →
      ‖rkStep g q h - rkStep g p h‖ ≤ (1 + K * h) * ‖q - p‖ := by
  obtain ⟨K, hK0, hK⟩ := lip_ball hg (R + 1)
  obtain ⟨G, hG0, hG⟩ := bounded_on_ball hg.continuous (R + 1)
  refine ⟨2 * K, 1 / (G + K + 1), by positivity, by positivity, fun h hh hδ p q hp hq => ?_⟩
  have hs : h * (G + K + 1) ≤ 1 := by rwa [le_div_iff₀ (by positivity)] at hδ
  have hhG : h * G ≤ 1 := by nlinarith
  have hhK : h * K ≤ 1 := by nlinarith
  have hR : R ≤ R + 1 := by linarith
  -- the stages stay in the larger ball
  have stage : ∀ p : E, ‖p‖ ≤ R → ∀ c, 0 ≤ c → c ≤ h → ∀ z, ‖z‖ ≤ R + 1 → ‖p + c • g z‖ ≤ R + 1 := by
    intro p hp c hc hch z hz
    calc ‖p + c • g z‖ ≤ ‖p‖ + ‖c • g z‖ := norm_add_le _ _
      _ = ‖p‖ + c * ‖g z‖ := by rw [norm_smul, Real.norm_of_nonneg hc]
      _ ≤ R + h * G := add_le_add hp (mul_le_mul hch (hG z hz) (norm_nonneg _) hh)
      _ ≤ R + 1 := by linarith
  have diff : ∀ c, 0 ≤ c → ∀ z w : E, ∀ D, ‖g w - g z‖ ≤ D → ‖(q + c • g w) - (p + c • g z)‖ ≤ ‖q - p‖ + c * D := by
    intro c hc z w D hD
    calc ‖(q + c • g w) - (p + c • g z)‖ = ‖(q - p) + c • (g w - g z)‖ := by congr 1; module
      _ ≤ ‖q - p‖ + ‖c • (g w - g z)‖ := norm_add_le _ _
      _ = ‖q - p‖ + c * ‖g w - g z‖ := by rw [norm_smul, Real.norm_of_nonneg hc]
      _ ≤ _ := by gcongr
  have hh2 : 0 ≤ h / 2 := by linarith
  have hh2' : h / 2 ≤ h := by linarith
  set d := ‖q - p‖ with hd
  have hd0 : 0 ≤ d := norm_nonneg _
  have p2 := stage p hp (h / 2) hh2 hh2' p (hp.trans hR)
  have q2 := stage q hq (h / 2) hh2 hh2' q (hq.trans hR)
  have p3 := stage p hp (h / 2) hh2 hh2' _ p2
  have q3 := stage q hq (h / 2) hh2 hh2' _ q2
  have p4 := stage p hp h hh le_rfl _ p3
  have q4 := stage q hq h hh le_rfl _ q3
  have k1 : ‖g q - g p‖ ≤ K * d := hK p q (hp.trans hR) (hq.trans hR)
  have k2 := (hK _ _ p2 q2).trans (mul_le_mul_of_nonneg_left (diff (h / 2) hh2 _ _ _ k1) hK0)
  have b2 : K * (d + h / 2 * (K * d)) ≤ 2 * (K * d) := by nlinarith [mul_nonneg hK0 hd0]
  have k2' := k2.trans b2
  have k3 := (hK _ _ p3 q3).trans (mul_le_mul_of_nonneg_left (diff (h / 2) hh2 _ _ _ k2') hK0)
  have b3 : K * (d + h / 2 * (2 * (K * d))) ≤ 2 * (K * d) := by nlinarith [mul_nonneg hK0 hd0]
  have k3' := k3.trans b3
  have k4 := (hK _ _ p4 q4).trans (mul_le_mul_of_nonneg_left (diff h hh _ _ _ k3') hK0)
  have b4 : K * (d + h * (2 * (K * d))) ≤ 3 * (K * d) := by nlinarith [mul_nonneg hK0 hd0]
  have k4' := k4.trans b4
  unfold rkStep
  generalize g (p + (h / 2) • g p) = a2 at *
  generalize g (q + (h / 2) • g q) = c2 at *
  generalize g (p + (h / 2) • a2) = a3 at *
  generalize g (q + (h / 2) • c2) = c3 at *
  generalize g (p + h • a3) = a4 at *
  generalize g (q + h • c3) = c4 at *
  generalize g p = a1 at *
  generalize g q = c1 at *
  calc _ = ‖(q - p) + (h / 6) • ((c1 - a1) + ((2 : ℝ) • (c2 - a2) + ((2 : ℝ) • (c3 - a3) + (c4 - a4))))‖ := by congr 1; module
    _ ≤ ‖q - p‖ + ‖(h / 6) • ((c1 - a1) + ((2 : ℝ) • (c2 - a2) + ((2 : ℝ) • (c3 - a3) + (c4 - a4))))‖ := norm_add_le _ _
    _ = d + h / 6 * ‖(c1 - a1) + ((2 : ℝ) • (c2 - a2) + ((2 : ℝ) • (c3 - a3) + (c4 - a4)))‖ := by
      rw [norm_smul, Real.norm_of_nonneg (by linarith : (0 : ℝ) ≤ h / 6)]
    _ ≤ d + h / 6 * (K * d + (2 * (2 * (K * d)) + (2 * (2 * (K * d)) + 3 * (K * d)))) := by
      have t2 : ‖(2 : ℝ) • (c2 - a2)‖ ≤ 2 * (2 * (K * d)) := by rw [norm_smul]; simpa using k2'
      have t3 : ‖(2 : ℝ) • (c3 - a3)‖ ≤ 2 * (2 * (K * d)) := by rw [norm_smul]; simpa using k3'
      have t34 := (norm_add_le ((2 : ℝ) • (c3 - a3)) (c4 - a4)).trans (add_le_add t3 k4')
      have t234 := (norm_add_le ((2 : ℝ) • (c2 - a2)) _).trans (add_le_add t2 t34)
      have t := (norm_add_le (c1 - a1) _).trans (add_le_add k1 t234)
      gcongr
    _ = _ := by ring

/-- The Runge-Kutta step differs from the Euler step by a quadratic term, for steps of either sign. -/
theorem rk_first {g : E → E} (hg : ContDiff ℝ 1 g) (R : ℝ) :
    ∃ C δ, 0 ≤ C ∧ 0 < δ ∧ ∀ h, |h| ≤ δ → ∀ p : E, ‖p‖ ≤ R → ‖rkStep g p h - (p + h • g p)‖ ≤ C * h ^ 2 := by
  obtain ⟨K, hK0, hK⟩ := lip_ball hg (R + 1)
  obtain ⟨G, hG0, hG⟩ := bounded_on_ball hg.continuous (R + 1)
  refine ⟨K * G, 1 / (G + 1), by positivity, by positivity, fun h hδ p hp => ?_⟩
  have hs : |h| * (G + 1) ≤ 1 := by rwa [le_div_iff₀ (by positivity)] at hδ
  have hhG : |h| * G ≤ 1 := by nlinarith [abs_nonneg h]
  have hpR : ‖p‖ ≤ R + 1 := by linarith
  have stage : ∀ c, |c| ≤ |h| → ∀ z, ‖z‖ ≤ R + 1 → ‖p + c • g z‖ ≤ R + 1 ∧ ‖g (p + c • g z) - g p‖ ≤ K * (|h| * G) := by
    intro c hc z hz
    have h1 : ‖c • g z‖ ≤ |h| * G := by
      rw [norm_smul, Real.norm_eq_abs]
      exact mul_le_mul hc (hG z hz) (norm_nonneg _) (abs_nonneg _)
    have h2 : ‖p + c • g z‖ ≤ R + 1 := (norm_add_le _ _).trans (by linarith)
    refine ⟨h2, (hK p _ hpR h2).trans (mul_le_mul_of_nonneg_left ?_ hK0)⟩
    simpa using h1
  have hh2 : |h / 2| ≤ |h| := by rw [abs_div]; norm_num
  obtain ⟨p2, k2⟩ := stage (h / 2) hh2 p hpR
  obtain ⟨p3, k3⟩ := stage (h / 2) hh2 _ p2
  obtain ⟨p4, k4⟩ := stage h le_rfl _ p3
  unfold rkStep
  generalize g (p + (h / 2) • g p) = a2 at *
  generalize g (p + (h / 2) • a2) = a3 at *
  generalize g (p + h • a3) = a4 at *
  generalize g p = a1 at *
  calc _ = ‖(h / 6) • ((2 : ℝ) • (a2 - a1) + ((2 : ℝ) • (a3 - a1) + (a4 - a1)))‖ := by congr 1; module
    _ = |h| / 6 * ‖(2 : ℝ) • (a2 - a1) + ((2 : ℝ) • (a3 - a1) + (a4 - a1))‖ := by
      rw [norm_smul, Real.norm_eq_abs, abs_div]; norm_num
    _ ≤ |h| / 6 * (2 * (K * (|h| * G)) + (2 * (K * (|h| * G)) + K * (|h| * G))) := by
      have t2 : ‖(2 : ℝ) • (a2 - a1)‖ ≤ 2 * (K * (|h| * G)) := by rw [norm_smul]; simpa using k2
      have t3 : ‖(2 : ℝ) • (a3 - a1)‖ ≤ 2 * (K * (|h| * G)) := by rw [norm_smul]; simpa using k3
      have t34 := (norm_add_le ((2 : ℝ) • (a3 - a1)) (a4 - a1)).trans (add_le_add t3 k4)
      have t234 := (norm_add_le ((2 : ℝ) • (a2 - a1)) _).trans (add_le_add t2 t34)
      gcongr
    _ = 5 / 6 * (K * G * |h| ^ 2) := by ring
    _ ≤ K * G * h ^ 2 := by
      rw [sq_abs]
      nlinarith [mul_nonneg (mul_nonneg hK0 hG0) (sq_nonneg h)]

/-- Discrete Gronwall estimate for a one-step method that is consistent of order `q` and stable near the exact values. -/
theorem gronwall {X : Type*} [NormedAddCommGroup X] {N : ℕ} {Φ : ℕ → X → X} {x y : ℕ → X} {h b c Λ T : ℝ} (hh : 0 ≤ h)
    (hb : 0 ≤ b) (hc : 0 ≤ c) (hΛ : 0 ≤ Λ) (hT : N * h ≤ T) (h0 : ‖x 0 - y 0‖ ≤ b)
    (hx : ∀ i < N, x (i + 1) = Φ i (x i)) (hloc : ∀ i < N, ‖Φ i (y i) - y (i + 1)‖ ≤ c * h)
    (hst : ∀ i < N, ∀ z, ‖z - y i‖ ≤ 1 → ‖Φ i z - Φ i (y i)‖ ≤ (1 + Λ * h) * ‖z - y i‖ + c * h)
    (hs : (b + 2 * c * T) * Real.exp (Λ * T) ≤ 1) :
    ∀ i ≤ N, ‖x i - y i‖ ≤ (b + 2 * c * T) * Real.exp (Λ * T) := by
  have hq : 1 ≤ 1 + Λ * h := by nlinarith
  have main : ∀ i ≤ N, (b + 2 * c * (i * h)) * (1 + Λ * h) ^ i ≤ (b + 2 * c * T) * Real.exp (Λ * T) := by
    intro i hi
    have hiN : (i : ℝ) * h ≤ N * h := mul_le_mul_of_nonneg_right (by exact_mod_cast hi) hh
    have e1 : (1 + Λ * h) ^ i ≤ Real.exp (Λ * T) := by
      calc (1 + Λ * h) ^ i ≤ Real.exp (Λ * h) ^ i := by
            refine pow_le_pow_left₀ (by linarith) ?_ i
            linarith [Real.add_one_le_exp (Λ * h)]
        _ = Real.exp (Λ * (i * h)) := by rw [← Real.exp_nat_mul]; ring_nf
        _ ≤ _ := Real.exp_le_exp.2 (mul_le_mul_of_nonneg_left (by linarith) hΛ)
    have e2 : 2 * c * (i * h) ≤ 2 * c * T := mul_le_mul_of_nonneg_left (by linarith) (by linarith)
    have : 0 ≤ (i : ℝ) * h := by positivity
    refine mul_le_mul (by linarith) e1 (by positivity) ?_
    have : 0 ≤ 2 * c * (i * h) := by positivity
    linarith
  have key : ∀ i ≤ N, ‖x i - y i‖ ≤ (b + 2 * c * (i * h)) * (1 + Λ * h) ^ i := by
    intro i
    induction i with
    | zero => intro _; simpa using h0
    | succ i ih =>
      intro hi
      have h1 := ih (by omega)
      have h2 := h1.trans ((main i (by omega)).trans hs)
      have h3 := hst i (by omega) (x i) h2
      have h4 := hloc i (by omega)
      have hp : 1 ≤ (1 + Λ * h) ^ (i + 1) := one_le_pow₀ hq
      rw [hx i (by omega)]
      calc ‖Φ i (x i) - y (i + 1)‖ = ‖(Φ i (x i) - Φ i (y i)) + (Φ i (y i) - y (i + 1))‖ := by congr 1; abel
        _ ≤ _ := norm_add_le _ _
        _ ≤ ((1 + Λ * h) * ‖x i - y i‖ + c * h) + c * h := add_le_add h3 h4
        _ ≤ (1 + Λ * h) * ((b + 2 * c * (i * h)) * (1 + Λ * h) ^ i) + 2 * (c * h) := by
          nlinarith [mul_le_mul_of_nonneg_left h1 (by linarith : 0 ≤ 1 + Λ * h)]
        _ ≤ (b + 2 * c * (i * h)) * (1 + Λ * h) ^ (i + 1) + 2 * (c * h) * (1 + Λ * h) ^ (i + 1) := by
          have : 2 * (c * h) ≤ 2 * (c * h) * (1 + Λ * h) ^ (i + 1) := by
            nlinarith [mul_nonneg hc hh]
          have e : (1 + Λ * h) * ((b + 2 * c * (i * h)) * (1 + Λ * h) ^ i) = (b + 2 * c * (i * h)) * (1 + Λ * h) ^ (i + 1) := by
            rw [pow_succ]; ring
          linarith
        _ = _ := by push_cast; ring
  exact fun i hi => (key i hi).trans (main i hi)

end Nmpc.Cgmres.OdeOrder
