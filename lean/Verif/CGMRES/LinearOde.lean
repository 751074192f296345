import Mathlib.Analysis.SpecialFunctions.Exponential
import Mathlib.Analysis.SpecialFunctions.Exp
import Mathlib.Analysis.Calculus.Deriv.Mul
import Mathlib.Analysis.Normed.Operator.Basic
import Mathlib.Analysis.Normed.Operator.Mul
import Mathlib.MeasureTheory.Integral.IntervalIntegral.FundThmCalculus

/-!
# Linear differential equations with coefficients that are constant on every stage: solutions exist and are bounded
-/

namespace Nmpc.LinearOde

open Set NormedSpace

variable {E : Type} [NormedAddCommGroup E] [NormedSpace ℝ E] [CompleteSpace E]

theorem norm_exp_le (B : E →L[ℝ] E) : ‖exp B‖ ≤ Real.exp ‖B‖ := by
  have h1 := exp_series_hasSum_exp' (𝕂 := ℝ) B
  have h2 := exp_series_hasSum_exp' (𝕂 := ℝ) (‖B‖ : ℝ)
  rw [← Real.exp_eq_exp_ℝ] at h2
  rw [← h1.tsum_eq]
  refine tsum_of_norm_bounded h2 fun k => ?_
  rw [norm_smul, Real.norm_of_nonneg (by positivity), smul_eq_mul]
  refine mul_le_mul_of_nonneg_left ?_ (by positivity)
  rcases k with _ | k
  · rw [pow_zero, pow_zero]
    exact ContinuousLinearMap.norm_id_le
  · exact norm_pow_le' B k.succ_pos

theorem norm_exp_smul_le (B : E →L[ℝ] E) {K : ℝ} (hB : ‖B‖ ≤ K) (u : ℝ) : ‖exp (u • B)‖ ≤ Real.exp (K * |u|) := by
  refine (norm_exp_le _).trans (Real.exp_le_exp.2 ?_)
  rw [norm_smul, Real.norm_eq_abs, mul_comm]
  exact mul_le_mul_of_nonneg_right hB (abs_nonneg u)

/-- One stage. -/
theorem stage (B : E →L[ℝ] E) {K : ℝ} (hB : ‖B‖ ≤ K) (g : ℝ → E) (hg : Continuous g) (e : ℝ) (l : E) :
    ∃ z : ℝ → E, Continuous z ∧ z e = l ∧ (∀ s, HasDerivAt z (B (z s) + g s) s) ∧
      ∀ s G G', (∀ r ∈ uIoc e s, ‖g r‖ ≤ G) → Real.exp (K * |s - e|) * G ≤ G' → 0 ≤ G → ‖z s‖ ≤ Real.exp (K * |s - e|) * (‖l‖ + |s - e| * G') := by
  have hK : 0 ≤ K := (norm_nonneg _).trans hB
  have hd : ∀ s : ℝ, HasDerivAt (fun s : ℝ => exp ((s - e) • B)) (B * exp ((s - e) • B)) s := fun s => by
    have := (hasDerivAt_exp_smul_const' (𝕂 := ℝ) B (s - e)).scomp s ((hasDerivAt_id s).sub_const e)
    simpa [Function.comp_def] using this
  have hc : Continuous fun s : ℝ => exp ((s - e) • B) := continuous_iff_continuousAt.2 fun s => (hd s).continuousAt
  have hc' : Continuous fun r : ℝ => exp ((e - r) • B) := by
    have := hc.comp (by fun_prop : Continuous fun r : ℝ => 2 * e - r)
    refine this.congr fun r => ?_
    simp only [Function.comp]
    ring_nf
  have hw : Continuous fun r => exp ((e - r) • B) (g r) := hc'.clm_apply hg
  have hI : ∀ s, HasDerivAt (fun s => l + ∫ r in e..s, exp ((e - r) • B) (g r)) (exp ((e - s) • B) (g s)) s := fun s =>
    ((hw.integral_hasStrictDerivAt e s).hasDerivAt).const_add l
  have hz : ∀ s, HasDerivAt (fun s => exp ((s - e) • B) (l + ∫ r in e..s, exp ((e - r) • B) (g r)))
      (B (exp ((s - e) • B) (l + ∫ r in e..s, exp ((e - r) • B) (g r))) + g s) s := fun s => by
    refine ((hd s).clm_apply (hI s)).congr_deriv ?_
    have h1 : exp ((s - e) • B) * exp ((e - s) • B) = 1 := by
      let _ : NormedAlgebra ℚ (E →L[ℝ] E) := NormedAlgebra.restrictScalars ℚ ℝ _
      rw [← exp_add_of_commute (((Commute.refl B).smul_left _).smul_right _), ← add_smul]
      simp
    have h2 : exp ((s - e) • B) (exp ((e - s) • B) (g s)) = g s := by
      rw [← mul_apply_eq_comp, h1]
      rfl
    rw [h2]
    rfl
  refine ⟨_, continuous_iff_continuousAt.2 fun s => (hz s).continuousAt, by simp, hz, fun s G G' hG hG' hG0 => ?_⟩
  refine (ContinuousLinearMap.le_opNorm _ _).trans (mul_le_mul (norm_exp_smul_le B hB _) ?_ (norm_nonneg _) (Real.exp_pos _).le)
  refine (norm_add_le _ _).trans (add_le_add le_rfl ?_)
  rw [mul_comm]
  refine (intervalIntegral.norm_integral_le_of_norm_le_const fun r hr => ?_)
  refine (ContinuousLinearMap.le_opNorm _ _).trans (le_trans (mul_le_mul ((norm_exp_smul_le B hB _).trans (Real.exp_le_exp.2 ?_)) (hG r hr) (norm_nonneg _) (Real.exp_pos _).le) hG')
  refine mul_le_mul_of_nonneg_left ?_ hK
  rw [abs_sub_comm]
  exact abs_sub_left_of_mem_uIcc (uIoc_subset_uIcc hr)

omit [NormedAddCommGroup E] [NormedSpace ℝ E] [CompleteSpace E] in
/-- Two pieces that agree at `e`. -/
theorem glue {y z : ℝ → E} {e : ℝ} (h : y e = z e) : (∀ s ≤ e, (fun s => if s ≤ e then y s else z s) s = y s) ∧
    ∀ s, e ≤ s → (fun s => if s ≤ e then y s else z s) s = z s := by
  refine ⟨fun s hs => if_pos hs, fun s hs => ?_⟩
  rcases hs.eq_or_lt with rfl | hs
  · simp [h]
  · exact if_neg (not_le.2 hs)

/-- Forwards from a given value. -/
theorem forward (A : ℕ → E →L[ℝ] E) {K : ℝ} (t h : ℝ) (hh : 0 ≤ h) (x : E) : ∀ N : ℕ, (∀ i < N, ‖A i‖ ≤ K) → ∃ y : ℝ → E, Continuous y ∧ y t = x ∧
    (∀ i < N, ∀ s ∈ Icc (t + i * h) (t + (i + 1) * h), HasDerivWithinAt y (A i (y s)) (Icc (t + i * h) (t + (i + 1) * h)) s) ∧
    ∀ s ∈ Icc t (t + N * h), ‖y s‖ ≤ Real.exp (K * (s - t)) * ‖x‖
  | 0, _ => ⟨fun _ => x, continuous_const, rfl, by simp, fun s hs => by
      have : s = t := le_antisymm (by simpa using hs.2) hs.1
      simp [this]⟩
  | N + 1, hA => by
    obtain ⟨y, yc, y0, yd, yb⟩ := forward A t h hh x N fun i hi => hA i (by omega)
    obtain ⟨z, zc, ze, zd, zb⟩ := stage (A N) (hA N (by omega)) (fun _ => 0) continuous_const (t + N * h) (y (t + N * h))
    have hN : 0 ≤ (N : ℝ) * h := by positivity
    obtain ⟨g1, g2⟩ := glue (y := y) (z := z) (e := t + N * h) ze.symm
    refine ⟨fun s => if s ≤ t + N * h then y s else z s, yc.if_le zc continuous_id continuous_const fun s hs => by rw [hs, ze], ?_, ?_, ?_⟩
    · rw [g1 _ (by linarith), y0]
    · intro i hi s hs
      rcases (Nat.lt_succ_iff.1 hi).eq_or_lt with rfl | hi
      · rw [g2 s hs.1]
        refine (((zd s).hasDerivWithinAt).congr (fun r hr => g2 r hr.1) (g2 s hs.1)).congr_deriv ?_
        simp
      · have hle : t + ((i : ℝ) + 1) * h ≤ t + N * h := by
          have : (i : ℝ) + 1 ≤ N := by exact_mod_cast hi
          nlinarith
        rw [g1 s (hs.2.trans hle)]
        exact (yd i hi s hs).congr (fun r hr => g1 r (hr.2.trans hle)) (g1 s (hs.2.trans hle))
    · intro s hs
      rcases le_total s (t + N * h) with hl | hl
      · rw [g1 s hl]
        exact yb s ⟨hs.1, hl⟩
      · rw [g2 s hl]
        have h1 := zb s 0 0 (by simp) (by simp) le_rfl
        have h2 := yb (t + N * h) ⟨by linarith, le_rfl⟩
        rw [abs_of_nonneg (by linarith), mul_zero, add_zero] at h1
        refine h1.trans ((mul_le_mul_of_nonneg_left h2 (Real.exp_pos _).le).trans (le_of_eq ?_))
        rw [← mul_assoc, ← Real.exp_add]
        ring_nf

/-- Backwards from a given value, with a continuous inhomogeneity. -/
theorem backward {K G G' h : ℝ} (hK : 0 ≤ K) (hh : 0 ≤ h) (hG0 : 0 ≤ G) (hG' : Real.exp (K * h) * G ≤ G') (l : E) : ∀ (N : ℕ) (A : ℕ → E →L[ℝ] E) (g : ℕ → ℝ → E) (t : ℝ),
    (∀ i < N, ‖A i‖ ≤ K) → (∀ i, Continuous (g i)) → (∀ i < N, ∀ s ∈ Icc t (t + N * h), ‖g i s‖ ≤ G) → ∃ z : ℝ → E, z (t + N * h) = l ∧
    (∀ i < N, ∀ s ∈ Icc (t + i * h) (t + (i + 1) * h), HasDerivWithinAt z (A i (z s) + g i s) (Icc (t + i * h) (t + (i + 1) * h)) s) ∧
    ∀ s ∈ Icc t (t + N * h), ‖z s‖ ≤ Real.exp (K * (t + N * h - s)) * (‖l‖ + (t + N * h - s) * G')
  | 0, _, _, t, _, _, _ => ⟨fun _ => l, rfl, by simp, fun s hs => by
      have : s = t := le_antisymm (by simpa using hs.2) hs.1
      simp [this]⟩
  | N + 1, A, g, t, hA, hg, hb => by
    have eN : t + h + N * h = t + ((N + 1 : ℕ) : ℝ) * h := by push_cast; ring
    have hN : 0 ≤ (N : ℝ) * h := by positivity
    have hG1 : 0 ≤ G' := (mul_nonneg (Real.exp_pos _).le hG0).trans hG'
    obtain ⟨z, z0, zd, zb⟩ := backward hK hh hG0 hG' l N (fun i => A (i + 1)) (fun i => g (i + 1)) (t + h) (fun i hi => hA _ (by omega))
      (fun i => hg _) fun i hi s hs => hb _ (by omega) s ⟨by linarith [hs.1], by rw [← eN]; exact hs.2⟩
    obtain ⟨w, _, we, wd, wb⟩ := stage (A 0) (hA 0 (by omega)) (g 0) (hg 0) (t + h) (z (t + h))
    obtain ⟨g1, g2⟩ := glue (y := w) (z := z) (e := t + h) we
    refine ⟨fun s => if s ≤ t + h then w s else z s, ?_, ?_, ?_⟩
    · rw [g2 _ (by linarith), ← eN, z0]
    · intro i hi s hs
      rcases i with _ | i
      · rw [Nat.cast_zero, zero_mul, add_zero, zero_add, one_mul] at hs ⊢
        rw [g1 s hs.2]
        exact ((wd s).hasDerivWithinAt).congr (fun r hr => g1 r hr.2) (g1 s hs.2)
      · have e1 : t + ((i + 1 : ℕ) : ℝ) * h = t + h + i * h := by push_cast; ring
        have e2 : t + (((i + 1 : ℕ) : ℝ) + 1) * h = t + h + (i + 1) * h := by push_cast; ring
        rw [e1, e2] at hs ⊢
        have hi0 : 0 ≤ (i : ℝ) * h := by positivity
        rw [g2 s (by linarith [hs.1])]
        exact (zd i (by omega) s hs).congr (fun r hr => g2 r (by linarith [hr.1])) (g2 s (by linarith [hs.1]))
    · intro s hs
      rw [← eN] at hs ⊢
      rcases le_total (t + h) s with hl | hl
      · rw [g2 s hl]
        exact zb s ⟨hl, hs.2⟩
      · rw [g1 s hl]
        have ha : |s - (t + h)| = t + h - s := by rw [abs_of_nonpos (by linarith)]; ring
        have h1 := wb s G G' (fun r hr => hb 0 (by omega) r (by
          rw [uIoc_of_ge hl] at hr
          exact ⟨by linarith [hr.1, hs.1], by rw [← eN]; linarith [hr.2]⟩)) (by
          rw [ha]
          refine le_trans (mul_le_mul_of_nonneg_right (Real.exp_le_exp.2 (mul_le_mul_of_nonneg_left ?_ hK)) hG0) hG'
          linarith [hs.1]) hG0
        have h2 := zb (t + h) ⟨le_rfl, by linarith⟩
        rw [ha] at h1
        have e3 : t + h + N * h - (t + h) = N * h := by ring
        rw [e3] at h2
        have h3 : 1 ≤ Real.exp (K * (N * h)) := Real.one_le_exp (by positivity)
        have h4 : (t + h - s) * G' ≤ Real.exp (K * (N * h)) * ((t + h - s) * G') :=
          le_mul_of_one_le_left (mul_nonneg (by linarith) hG1) h3
        refine h1.trans ((mul_le_mul_of_nonneg_left (add_le_add h2 h4) (Real.exp_pos _).le).trans (le_of_eq ?_))
        rw [← mul_add, ← mul_assoc, ← Real.exp_add]
        ring_nf

end Nmpc.LinearOde
