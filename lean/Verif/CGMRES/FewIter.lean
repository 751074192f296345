import Verif.CGMRES.Tracking
import Verif.CGMRES.RateProps

/-!
# C/GMRES with fewer GMRES iterations than unknowns (C112)

The default limit `k_max_` is 5 iterations (CgmresSolver.h 75) for 25 stages (CgmresSolver.h 69), so that C108_affine does not apply.  The equation of a round is not solved then, but
the direction of the round before is the initial guess.
-/

namespace Nmpc.Cgmres

open Finset Matrix

variable {n m N : ℕ} {L : Gmres.Dense ℝ} {P : Problem n m ℝ} {ode simOde : Ode ℝ} {cfg : Config ℝ}

/-- One round for a residual `M U + G x + c`: GMRES is applied to `M d = -(ζ F + G dx/dt)`, and the rest of that equation enters the residual
of the next round. -/
theorem affine_round (hδ : cfg.delta ≠ 0) (hdt : 0 < cfg.dt) (M : Mat (N * m) (N * m) ℝ) (G : Mat (N * m) n ℝ) (c : Vec (N * m) ℝ)
    (haff : ∀ (t : ℝ) (x : Vec n ℝ) (U : Fin N → Vec m ℝ), flatten (dhduList P ode cfg t x U) = M *ᵥ flatten U + G *ᵥ x + c)
    (T : Trajectory L P ode simOde cfg N) (k : ℕ) :
    (∃ r, Gmres.solveMat L (gmresConfig cfg.kMax) M (-(cfg.zeta • T.residual k + cfg.dt⁻¹ • (G *ᵥ (T.x (k + 1) - T.x k))))
      (T.mem k).deltaU = .ok r ∧ (T.mem (k + 1)).deltaU = r.x) ∧
    T.residual (k + 1) = T.residual k + cfg.dt • (M *ᵥ (T.mem (k + 1)).deltaU + cfg.dt⁻¹ • (G *ᵥ (T.x (k + 1) - T.x k))) := by
  obtain ⟨_, r, hl, hr, hU, _, _⟩ := calcControlInput_ok L P ode cfg (T.control k)
  refine ⟨⟨r, ?_, hr⟩, ?_⟩
  · have hA : eqAmul P ode cfg (k * cfg.dt + cfg.delta) (xDelta cfg (T.x k) (T.x (k + 1))) (T.mem k).uList
        (dhduList P ode cfg (k * cfg.dt + cfg.delta) (xDelta cfg (T.x k) (T.x (k + 1))) (T.mem k).uList) = FOps.mulVec M := by
      funext v j
      simp only [eqAmul, smulv_real]
      rw [haff, haff, flatten_add, flatten_smul, show flatten (fun i => segment v i) = v from C53_flatten_segment v,
        mulVec_add, mulVec_smul]
      simp only [Pi.add_apply, Pi.smul_apply, smul_eq_mul, mulVec_real]
      field_simp
      ring
    have hx : xDelta cfg (T.x k) (T.x (k + 1)) = T.x k + (cfg.delta * cfg.dt⁻¹) • (T.x (k + 1) - T.x k) := by
      unfold xDelta
      rw [smulv_real, smulv_real, div_eq_mul_inv]
      module
    have hb : eqB cfg (dhduList P ode cfg (k * cfg.dt) (T.x k) (T.mem k).uList)
        (dhduList P ode cfg (k * cfg.dt + cfg.delta) (xDelta cfg (T.x k) (T.x (k + 1))) (T.mem k).uList) =
        -(cfg.zeta • T.residual k + cfg.dt⁻¹ • (G *ᵥ (T.x (k + 1) - T.x k))) := by
      funext j
      unfold Trajectory.residual
      simp only [eqB]
      rw [haff, haff, hx, mulVec_add, mulVec_smul]
      simp only [Pi.add_apply, Pi.smul_apply, Pi.neg_apply, smul_eq_mul]
      field_simp
      ring
    unfold Gmres.solveMat
    rw [← hA, ← hb]
    exact hl
  · unfold Trajectory.residual
    rw [haff, haff, hU, hr, flatten_add, flatten_smul, show flatten (fun i => segment r.x i) = r.x from C53_flatten_segment _,
      mulVec_add, mulVec_smul, smul_add, smul_smul, mul_inv_cancel₀ hdt.ne', one_smul, mulVec_sub]
    abel

theorem setup_deltaU {s : Mem m N ℝ} {u : Vec m ℝ} (h : setup L P cfg N = .ok (s, u)) : s.deltaU = 0 := by
  unfold setup at h
  cases hs : setupLoop L P cfg (P.dphidx 0 P.x0) 100 { u := P.u0, deltaU := fun _ => 0, dhdu := fun _ => 0 } with
  | ok q =>
    rw [hs] at h
    injection h with h
    injection h with h1 h2
    subst h1
    rfl
  | _ => rw [hs] at h; cases h

/-- A pair of sequences with a stable linear bound decays geometrically up to a constant. -/
theorem pair_decay {A B C D : ℝ} (hA : 0 ≤ A) (hB : 0 ≤ B) (hC : 0 ≤ C) (hD1 : D < 1) (hA1 : A < 1)
    (hs : B * C < (1 - A) * (1 - D)) :
    ∃ θ w : ℝ, 0 ≤ θ ∧ θ < 1 ∧ 0 ≤ w ∧ ∀ (f r : ℕ → ℝ) (e : ℝ), (∀ k, 0 ≤ f k) → (∀ k, 0 ≤ r k) → 0 ≤ e →
      (∀ k, f (k + 1) ≤ A * f k + B * r k) → (∀ k, r (k + 1) ≤ C * f k + D * r k + e) →
      ∀ k, f k ≤ θ ^ k * (f 0 + w * r 0) + w * e / (1 - θ) := by
  -- weight `w` with `A + w C < 1` and `B + w D < w`
  obtain ⟨w, hw0, hw1, hw2⟩ : ∃ w : ℝ, 0 < w ∧ A + w * C < 1 ∧ B + w * D < w := by
    rcases hC.eq_or_lt with h0 | h0
    · refine ⟨(B + 1) / (1 - D), by apply div_pos <;> linarith, by rw [← h0]; linarith, ?_⟩
      have : (B + 1) / (1 - D) * (1 - D) = B + 1 := div_mul_cancel₀ _ (by linarith)
      nlinarith
    · have hlt : B / (1 - D) < (1 - A) / C := by
        rw [div_lt_div_iff₀ (by linarith) h0]
        linarith
      obtain ⟨w, h1, h2⟩ := exists_between hlt
      have hw : 0 < w := lt_of_le_of_lt (div_nonneg hB (by linarith)) h1
      rw [div_lt_iff₀ (by linarith)] at h1
      rw [lt_div_iff₀ h0] at h2
      exact ⟨w, hw, by linarith, by linarith⟩
  have hθ1 : max (A + w * C) (B / w + D) < 1 := by
    refine max_lt hw1 ?_
    rw [← lt_sub_iff_add_lt, div_lt_iff₀ hw0]
    linarith
  refine ⟨max (A + w * C) (B / w + D), w, le_max_of_le_left (by positivity), hθ1, hw0.le, ?_⟩
  intro f r e hf hr he h1 h2
  have key : ∀ k, f k + w * r k ≤ max (A + w * C) (B / w + D) ^ k * (f 0 + w * r 0) + w * e / (1 - max (A + w * C) (B / w + D)) := by
    intro k
    induction k with
    | zero =>
      have : 0 ≤ w * e / (1 - max (A + w * C) (B / w + D)) := div_nonneg (by positivity) (by linarith)
      simpa using this
    | succ k ih =>
      have h3 := le_max_left (A + w * C) (B / w + D)
      have h4 := le_max_right (A + w * C) (B / w + D)
      set θ := max (A + w * C) (B / w + D)
      have h5 : B + w * D ≤ θ * w := by
        have := mul_le_mul_of_nonneg_right h4 hw0.le
        rw [add_mul, div_mul_cancel₀ _ hw0.ne'] at this
        linarith
      have hθ : 0 ≤ θ := le_trans (by positivity) h3
      have h6 : 1 - θ ≠ 0 := by linarith
      calc f (k + 1) + w * r (k + 1) ≤ (A * f k + B * r k) + w * (C * f k + D * r k + e) :=
            add_le_add (h1 k) (mul_le_mul_of_nonneg_left (h2 k) hw0.le)
        _ = (A + w * C) * f k + (B + w * D) * r k + w * e := by ring
        _ ≤ θ * f k + θ * w * r k + w * e := by
            gcongr
            · exact hf k
            · exact hr k
        _ = θ * (f k + w * r k) + w * e := by ring
        _ ≤ θ * (θ ^ k * (f 0 + w * r 0) + w * e / (1 - θ)) + w * e := by gcongr
        _ = _ := by field_simp; ring
  intro k
  have := mul_nonneg hw0.le (hr k)
  linarith [key k]

end Nmpc.Cgmres
