import Verif.DDP.BoxKktProps
import Verif.BoxQP.RelImprove

/-!
# C90: is a step with input limits expected to improve? (exact arithmetic)
-/

namespace Nmpc.DDP

set_option linter.unusedSectionVars false

open Matrix Finset

/-! ## Certified quadratic programs give descent -/

/-- If `x` minimises the quadratic function over a convex set containing the origin up to `thr * |y - x|`, then its slope is that of a
descent direction up to `thr * |x|`. -/
theorem slope_of_optimal {k : ℕ} {H : Mat k k ℝ} (hH : H.PosSemidef) {g x lower upper : Vec k ℝ} {thr : ℝ}
    (hx : BoxQP.InBox lower upper x) (h0 : BoxQP.InBox lower upper 0)
    (hopt : ∀ y, BoxQP.InBox lower upper y → BoxQP.qp H g x ≤ BoxQP.qp H g y + thr * Real.sqrt ((y - x) ⬝ᵥ (y - x))) :
    x ⬝ᵥ g + x ⬝ᵥ H *ᵥ x ≤ thr * Real.sqrt (x ⬝ᵥ x) := by
  have hS := posSemidef_iff.1 hH
  set q := x ⬝ᵥ H *ᵥ x with hq
  have hq0 : 0 ≤ q := hS.2 x
  have key : ∀ s : ℝ, 0 < s → s ≤ 1 → x ⬝ᵥ g + q ≤ thr * Real.sqrt (x ⬝ᵥ x) + s * q := by
    intro s hs hs1
    have hy : BoxQP.InBox lower upper (x + (-s) • x) := by
      intro i
      have h1 := hx i
      have h2 := h0 i
      simp only [Pi.zero_apply, Pi.add_apply, Pi.smul_apply, smul_eq_mul] at h2 ⊢
      have hs1' : 0 ≤ 1 - s := by linarith
      constructor
      · nlinarith [mul_le_mul_of_nonneg_left h1.1 hs1', mul_le_mul_of_nonneg_left h2.1 hs.le]
      · nlinarith [mul_le_mul_of_nonneg_left h1.2 hs1', mul_le_mul_of_nonneg_left h2.2 hs.le]
    have h1 := hopt _ hy
    rw [BoxQP.qp_expand hS.1] at h1
    have h2 : x + (-s) • x - x = (-s) • x := by abel
    have h3 : Real.sqrt (((-s) • x) ⬝ᵥ ((-s) • x)) = s * Real.sqrt (x ⬝ᵥ x) := by
      rw [smul_dotProduct, dotProduct_smul, smul_eq_mul, smul_eq_mul, ← mul_assoc, neg_mul_neg,
        Real.sqrt_mul (mul_self_nonneg s), Real.sqrt_mul_self hs.le]
    rw [h2, h3] at h1
    simp only [dotProduct_smul, smul_dotProduct, mulVec_smul, smul_eq_mul, add_dotProduct] at h1
    rw [dotProduct_comm g x, dotProduct_comm (H *ᵥ x) x, ← hq] at h1
    have h4 : s * (x ⬝ᵥ g + q) ≤ s * (thr * Real.sqrt (x ⬝ᵥ x) + s * q) := by
      nlinarith [mul_nonneg (mul_nonneg hs.le hs.le) hq0]
    exact le_of_mul_le_mul_left h4 hs
  by_contra hne
  push Not at hne
  set gap := x ⬝ᵥ g + q - thr * Real.sqrt (x ⬝ᵥ x) with hgap
  have hpos : 0 < gap := by linarith
  have hs : 0 < min 1 (gap / (2 * (q + 1))) := lt_min one_pos (div_pos hpos (by linarith))
  have h1 := key _ hs (min_le_left _ _)
  have h2 : min 1 (gap / (2 * (q + 1))) * q ≤ gap / 2 := by
    calc min 1 (gap / (2 * (q + 1))) * q ≤ gap / (2 * (q + 1)) * q := mul_le_mul_of_nonneg_right (min_le_right _ _) hq0
      _ = gap / 2 * (q / (q + 1)) := by field_simp
      _ ≤ gap / 2 * 1 := by
          refine mul_le_mul_of_nonneg_left ?_ (by linarith)
          rw [div_le_one (by linarith)]; linarith
      _ = gap / 2 := mul_one _
  linarith

/-- The feedforward term `kv` was returned with code 5 or 6 by BoxQP for the quadratic program of the stage (DDPSolver.hpp 469-476). -/
def CertifiedStage {n k : ℕ} (L : LLT ℝ) (Q : QData n k ℝ) (lower upper u kv : Vec k ℝ) : Prop :=
  ∃ init r, BoxQP.solve L BoxQP.Config.default (freshQP k)
    { H := Q.QuuF, g := Q.Qu, lower := lower - u, upper := upper - u, init := init } = .ok r ∧ r.x = kv ∧
    (r.obj.retval = 5 ∨ r.obj.retval = 6)

theorem CertifiedStage.slope {n k : ℕ} {L : LLT ℝ} {Q : QData n k ℝ} {lower upper u kv : Vec k ℝ}
    (h : CertifiedStage L Q lower upper u kv) (hQ : Q.QuuF.PosSemidef) (hu : ∀ i, lower i ≤ u i ∧ u i ≤ upper i) :
    kv ⬝ᵥ Q.Qu + kv ⬝ᵥ Q.QuuF *ᵥ kv ≤ 1 / 10 ^ 8 * Real.sqrt (kv ⬝ᵥ kv) := by
  obtain ⟨init, r, hr, rfl, h56⟩ := h
  have hbox := BoxQP.C01_result_in_box_real (r := r) (fun i => by
    show lower i - u i ≤ upper i - u i
    linarith [(hu i).1, (hu i).2]) hr
  refine slope_of_optimal hQ hbox (fun i => ?_) fun y hy => ?_
  · simp only [Pi.sub_apply, Pi.zero_apply]
    constructor <;> linarith [(hu i).1, (hu i).2]
  · rcases h56 with h | h
    · have := BoxQP.C05_small_gradient_optimal hQ hr h y hy
      simpa [BoxQP.Config.default, abs_of_pos] using this
    · have h1 := BoxQP.C04_all_clamped_optimal hQ hr h y hy
      have h2 : 0 ≤ 1 / 10 ^ 8 * Real.sqrt ((y - r.x) ⬝ᵥ (y - r.x)) := by positivity
      dsimp only at h1
      linarith

section Step
variable {n : ℕ} {m : ℕ → ℕ} {L : LLT ℝ} {cfg : Config ℝ} {N : ℕ} {S : Stages n m ℝ} {x0 : Vec n ℝ}
  {lim : (i : ℕ) → Vec (m i) ℝ × Vec (m i) ℝ}

/-- In a convex model the value functions of a backward pass are convex whatever the gains. -/
theorem Chain.psd {c : Ctrl n m ℝ} {d : Derivs n m ℝ} {lambda : ℝ} {V : ℕ → VDeriv n ℝ} {g : Gains n m ℝ}
    (h : Chain L N cfg S c d lambda N V g) (hV : V N = d.V) (hc : ConvexModel N d) : ∀ i j, j + i = N → (V j).Vxx.PosSemidef := by
  intro i
  induction i with
  | zero => intro j hj; rw [show j = N by omega, hV]; exact hc.term
  | succ i ih =>
    intro j hj
    have h1 := ih (j + 1) (by omega)
    have hVs := posSemidef_iff.1 h1
    rw [h.value j (by omega)]
    refine posSemidef_iff.2 ⟨updateV_symm _ _ _, fun dx => ?_⟩
    rw [updateV_quad]
    have h2 := calcQ_quad (cfg := cfg) (lambda := lambda) (d.F j) (d.L j) (V (j + 1)) hVs.1 dx (g.K j *ᵥ dx)
    have h3 := hc.stage j (by omega) dx (g.K j *ᵥ dx)
    have h4 := hVs.2 ((d.F j).Fx *ᵥ dx + (d.F j).Fu *ᵥ (g.K j *ᵥ dx))
    unfold Qat
    linarith

/-- **C90 (certified passes)** With input limits, a convex model and the current inputs within the limits: if BoxQP returned code 5 or 6 at
every stage of the backward pass, then the step is expected to improve up to `1e-8` times the size of the feedforward terms. -/
theorem C90_certified {iter : ℕ} {s s2 : Solver n m ℝ} (hb : bwSearch L N cfg S (startIter N cfg S iter s) = (s2, .ok true))
    (h0 : 0 ≤ s2.lambda) (hc : ConvexModel N (calcDerivs N cfg S s.ctrl s.derivs))
    (hin : ∀ j < N, ∀ r, (lim j).1 r ≤ s.ctrl.u j r ∧ s.ctrl.u j r ≤ (lim j).2 r) :
    ∃ V : ℕ → VDeriv n ℝ, V N = s2.derivs.V ∧
      (∀ j < N, V j = updateV (calcQ cfg s2.lambda (s2.derivs.F j) (s2.derivs.L j) (V (j + 1))) (s2.gains.k j) (s2.gains.K j)) ∧
      ((∀ j < N, 0 < m j → CertifiedStage L (calcQ cfg s2.lambda (s2.derivs.F j) (s2.derivs.L j) (V (j + 1))) (lim j).1 (lim j).2
          (s.ctrl.u j) (s2.gains.k j)) →
        ∀ a, 0 ≤ a → a ≤ 2 →
          a * (1 - a / 2) * (∑ j ∈ range N, s2.gains.k j ⬝ᵥ
              (calcQ cfg s2.lambda (s2.derivs.F j) (s2.derivs.L j) (V (j + 1))).QuuF *ᵥ s2.gains.k j) -
            a * (1 / 10 ^ 8 * ∑ j ∈ range N, Real.sqrt (s2.gains.k j ⬝ᵥ s2.gains.k j)) ≤ (tryAlpha N cfg S s2 a).expected) := by
  obtain ⟨h1, h2, _, V, h3, h4, h5, h6⟩ := bwSearch_chain hb
  refine ⟨V, h3, h4.value, fun hcert a ha ha2 => ?_⟩
  rw [← h2] at hc
  have hpsd : ∀ j < N, (calcQ cfg s2.lambda (s2.derivs.F j) (s2.derivs.L j) (V (j + 1))).QuuF.PosSemidef := fun j hj =>
    (calcQ_posDef h0 (h4.psd h3 hc (N - (j + 1)) (j + 1) (by omega)) (hc.input j hj)).posSemidef
  have hsl : ∀ j < N, s2.gains.k j ⬝ᵥ (calcQ cfg s2.lambda (s2.derivs.F j) (s2.derivs.L j) (V (j + 1))).Qu + s2.gains.k j ⬝ᵥ
      (calcQ cfg s2.lambda (s2.derivs.F j) (s2.derivs.L j) (V (j + 1))).QuuF *ᵥ s2.gains.k j ≤
      1 / 10 ^ 8 * Real.sqrt (s2.gains.k j ⬝ᵥ s2.gains.k j) := fun j hj => by
    rcases Nat.eq_zero_or_pos (m j) with hm | hm
    · have hE : IsEmpty (Fin (m j)) := by rw [hm]; infer_instance
      simp [dotProduct]
    · exact (hcert j hj hm).slope (hpsd j hj) (hin j hj)
  have e0 : s2.dV0 + ∑ j ∈ range N, s2.gains.k j ⬝ᵥ
      (calcQ cfg s2.lambda (s2.derivs.F j) (s2.derivs.L j) (V (j + 1))).QuuF *ᵥ s2.gains.k j ≤
      1 / 10 ^ 8 * ∑ j ∈ range N, Real.sqrt (s2.gains.k j ⬝ᵥ s2.gains.k j) := by
    rw [h5, ← sum_add_distrib, mul_sum]
    exact sum_le_sum fun j hj => hsl j (mem_range.1 hj)
  have e1 : s2.dV1 ≤ 1 / 2 * ∑ j ∈ range N, s2.gains.k j ⬝ᵥ
      (calcQ cfg s2.lambda (s2.derivs.F j) (s2.derivs.L j) (V (j + 1))).QuuF *ᵥ s2.gains.k j := by
    rw [h6, mul_sum]
    refine sum_le_sum fun j hj => ?_
    have := calcQ_quad_le (cfg := cfg) h0 (s2.derivs.F j) (s2.derivs.L j) (V (j + 1)) (s2.gains.k j)
    unfold Qat
    linarith
  rw [(tryAlpha_real s2 a).2]
  nlinarith [mul_le_mul_of_nonneg_left e0 ha, mul_le_mul_of_nonneg_left e1 (mul_nonneg ha ha)]

end Step

end Nmpc.DDP
