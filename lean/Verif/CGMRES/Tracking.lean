import Verif.CGMRES.Continuation
import Verif.CGMRES.Sim
import Verif.CGMRES.Setup
import Mathlib.Analysis.Calculus.MeanValue
import Mathlib.Analysis.Calculus.Deriv.Pow
import Mathlib.Analysis.InnerProductSpace.Calculus

/-!
# How well `run` tracks the solution of the optimality conditions (C108), in exact arithmetic

The residual (the list of `∂H/∂u`) along one control step, from the values before the step (`τ = 0`) to those after it (`τ = dt`), is the
curve `stepCurve`; the linear equation prescribes it at `τ = δ`.
-/

namespace Nmpc.Cgmres

open Finset Matrix

variable {n m N : ℕ}

theorem norm2_add (v w : Vec m ℝ) : Gmres.norm2 (v + w) ≤ Gmres.norm2 v + Gmres.norm2 w := by
  unfold Gmres.norm2; rw [WithLp.toLp_add]; exact norm_add_le _ _

theorem norm2_smul (c : ℝ) (v : Vec m ℝ) : Gmres.norm2 (c • v) = |c| * Gmres.norm2 v := by
  unfold Gmres.norm2; rw [WithLp.toLp_smul, norm_smul, Real.norm_eq_abs]

theorem norm2_sub_le (v w : Vec m ℝ) : Gmres.norm2 v ≤ Gmres.norm2 (v - w) + Gmres.norm2 w := by
  have := norm2_add (v - w) w
  rwa [sub_add_cancel] at this

theorem norm2_sub_ge (v w : Vec m ℝ) : Gmres.norm2 w - Gmres.norm2 (v - w) ≤ Gmres.norm2 v := by
  have := norm2_sub_le w v
  have h : Gmres.norm2 (w - v) = Gmres.norm2 (v - w) := by
    have := norm2_smul (-1) (v - w)
    rwa [neg_one_smul, neg_sub, abs_neg, abs_one, one_mul] at this
  linarith

variable (L : Gmres.Dense ℝ) (P : Problem n m ℝ) (ode simOde : Ode ℝ) (cfg : Config ℝ)

/-- The residual at the fraction `τ / dt` of a control step with the direction `d`: time `t + τ`, state on the line from `x` through the next
state, inputs `U + τ d`. -/
noncomputable def stepCurve (t : ℝ) (x nextX : Vec n ℝ) (U : Fin N → Vec m ℝ) (d : Vec (N * m) ℝ) (τ : ℝ) : Vec (N * m) ℝ :=
  flatten (dhduList P ode cfg (t + τ) ((1 - τ / cfg.dt) • x + (τ / cfg.dt) • nextX) fun i => U i + τ • segment d i)

theorem stepCurve_zero (t : ℝ) (x nextX : Vec n ℝ) (U : Fin N → Vec m ℝ) (d : Vec (N * m) ℝ) :
    stepCurve P ode cfg t x nextX U d 0 = flatten (dhduList P ode cfg t x U) := by
  simp [stepCurve]

theorem stepCurve_dt (hdt : cfg.dt ≠ 0) (t : ℝ) (x nextX : Vec n ℝ) (U : Fin N → Vec m ℝ) (d : Vec (N * m) ℝ) :
    stepCurve P ode cfg t x nextX U d cfg.dt =
      flatten (dhduList P ode cfg (t + cfg.dt) nextX fun i => U i + cfg.dt • segment d i) := by
  simp [stepCurve, div_self hdt]

/-- **C108**, one step: let `φ` be the residual along the step.  If the linear equation is solved up to `ρ` (its residual is
`(φ(δ) - (1 - ζ δ) φ(0)) / δ`, see `C52_shift`) and the mean slopes of `φ` over `[0, dt]` and `[0, δ]` differ by at most `κ`, then the residual
after the step differs from `1 - ζ dt` times the one before it by at most `dt (ρ + κ)`. -/
theorem C108_step (hd : cfg.delta ≠ 0) (hdt : cfg.dt ≠ 0) {t : ℝ} {x nextX : Vec n ℝ} {s s' : Mem m N ℝ} {u : Vec m ℝ}
    (h : calcControlInput L P ode cfg t x nextX s = .ok (s', u)) {ρ κ : ℝ}
    (hρ : Gmres.norm2 (cfg.delta⁻¹ • (stepCurve P ode cfg t x nextX s.uList s'.deltaU cfg.delta -
      (1 - cfg.zeta * cfg.delta) • stepCurve P ode cfg t x nextX s.uList s'.deltaU 0)) ≤ ρ)
    (hκ : Gmres.norm2 (cfg.dt⁻¹ • (stepCurve P ode cfg t x nextX s.uList s'.deltaU cfg.dt - stepCurve P ode cfg t x nextX s.uList s'.deltaU 0) -
      cfg.delta⁻¹ • (stepCurve P ode cfg t x nextX s.uList s'.deltaU cfg.delta - stepCurve P ode cfg t x nextX s.uList s'.deltaU 0)) ≤ κ) :
    Gmres.norm2 (flatten (dhduList P ode cfg (t + cfg.dt) nextX s'.uList) -
      (1 - cfg.zeta * cfg.dt) • flatten (dhduList P ode cfg t x s.uList)) ≤ |cfg.dt| * (ρ + κ) := by
  obtain ⟨_, r, _, hr, hU, _, _⟩ := calcControlInput_ok L P ode cfg h
  have e1 : flatten (dhduList P ode cfg (t + cfg.dt) nextX s'.uList) = stepCurve P ode cfg t x nextX s.uList s'.deltaU cfg.dt := by
    rw [stepCurve_dt P ode cfg hdt, hU, hr]
  rw [e1, ← stepCurve_zero P ode cfg t x nextX s.uList s'.deltaU]
  generalize stepCurve P ode cfg t x nextX s.uList s'.deltaU = φ at hρ hκ ⊢
  have e : φ cfg.dt - (1 - cfg.zeta * cfg.dt) • φ 0 =
      cfg.dt • (cfg.delta⁻¹ • (φ cfg.delta - (1 - cfg.zeta * cfg.delta) • φ 0) +
        (cfg.dt⁻¹ • (φ cfg.dt - φ 0) - cfg.delta⁻¹ • (φ cfg.delta - φ 0))) := by
    funext k
    simp only [Pi.sub_apply, Pi.smul_apply, Pi.add_apply, smul_eq_mul]
    field_simp
    ring
  rw [e, norm2_smul]
  exact mul_le_mul_of_nonneg_left ((norm2_add _ _).trans (add_le_add hρ hκ)) (abs_nonneg _)

/-- Difference of the mean slopes of a curve whose derivative is Lipschitz at the start. -/
theorem slope_diff {k : ℕ} {φ φ' : ℝ → Vec k ℝ} {K b : ℝ}
    (hφ : ∀ τ ∈ Set.Icc 0 b, HasDerivAt φ (φ' τ) τ) (hK : ∀ τ ∈ Set.Icc 0 b, Gmres.norm2 (φ' τ - φ' 0) ≤ K * τ)
    {τ : ℝ} (h0 : 0 < τ) (hb : τ ≤ b) : Gmres.norm2 (τ⁻¹ • (φ τ - φ 0) - φ' 0) ≤ K * τ / 2 := by
  let E := PiLp.continuousLinearEquiv 2 ℝ (fun _ : Fin k => ℝ)
  let g : ℝ → EuclideanSpace ℝ (Fin k) := fun τ => E.symm (φ τ - φ 0 - τ • φ' 0)
  have hg : ∀ τ ∈ Set.Icc 0 b, HasDerivAt g (E.symm (φ' τ - φ' 0)) τ := by
    intro τ hτ
    have h1 : HasDerivAt (fun τ => φ τ - φ 0 - τ • φ' 0) (φ' τ - φ' 0) τ := by
      have := ((hφ τ hτ).sub_const (φ 0)).sub ((hasDerivAt_id τ).smul_const (φ' 0))
      rw [one_smul] at this
      exact this
    exact E.symm.hasFDerivAt.comp_hasDerivAt τ h1
  have key := image_norm_le_of_norm_deriv_right_le_deriv_boundary (f := g) (f' := fun τ => E.symm (φ' τ - φ' 0)) (a := 0) (b := b)
    (B := fun τ => K * τ ^ 2 / 2) (B' := fun τ => K * τ)
    (fun τ hτ => (hg τ hτ).continuousAt.continuousWithinAt) (fun τ hτ => (hg τ ⟨hτ.1, hτ.2.le⟩).hasDerivWithinAt)
    (by simp [g]) (fun τ => by
      have := ((hasDerivAt_pow 2 τ).const_mul (K / 2))
      refine (this.congr_deriv ?_).congr_of_eventuallyEq (Filter.Eventually.of_forall fun y => ?_)
      · norm_num; ring
      · ring)
    (fun τ hτ => hK τ ⟨hτ.1, hτ.2.le⟩) (x := τ) ⟨h0.le, hb⟩
  have e : τ⁻¹ • (φ τ - φ 0) - φ' 0 = τ⁻¹ • (φ τ - φ 0 - τ • φ' 0) := by
    rw [smul_sub _ _ (τ • φ' 0), smul_smul, inv_mul_cancel₀ h0.ne', one_smul]
  rw [e, norm2_smul, abs_of_pos (inv_pos.mpr h0), inv_mul_le_iff₀ h0]
  calc Gmres.norm2 (φ τ - φ 0 - τ • φ' 0) ≤ K * τ ^ 2 / 2 := key
    _ = τ * (K * τ / 2) := by ring

/-- **C108**, smooth problems: if the residual along the step has a derivative that differs from its value at the start by at most
`K τ` (for example, a second derivative bounded by `K`) then `κ = K (dt + δ) / 2` will do in `C108_step`. -/
theorem C108_smooth (hd : 0 < cfg.delta) (hdt : 0 < cfg.dt) {t : ℝ} {x nextX : Vec n ℝ} {s s' : Mem m N ℝ} {u : Vec m ℝ}
    (h : calcControlInput L P ode cfg t x nextX s = .ok (s', u)) {ρ K : ℝ} {φ' : ℝ → Vec (N * m) ℝ}
    (hρ : Gmres.norm2 (cfg.delta⁻¹ • (stepCurve P ode cfg t x nextX s.uList s'.deltaU cfg.delta -
      (1 - cfg.zeta * cfg.delta) • stepCurve P ode cfg t x nextX s.uList s'.deltaU 0)) ≤ ρ)
    (hφ : ∀ τ ∈ Set.Icc 0 (max cfg.dt cfg.delta), HasDerivAt (stepCurve P ode cfg t x nextX s.uList s'.deltaU) (φ' τ) τ)
    (hK : ∀ τ ∈ Set.Icc 0 (max cfg.dt cfg.delta), Gmres.norm2 (φ' τ - φ' 0) ≤ K * τ) :
    Gmres.norm2 (flatten (dhduList P ode cfg (t + cfg.dt) nextX s'.uList) -
      (1 - cfg.zeta * cfg.dt) • flatten (dhduList P ode cfg t x s.uList)) ≤ cfg.dt * (ρ + K * (cfg.dt + cfg.delta) / 2) := by
  have := C108_step L P ode cfg hd.ne' hdt.ne' h hρ (κ := K * (cfg.dt + cfg.delta) / 2) (by
    have h1 := slope_diff hφ hK hdt (le_max_left _ _)
    have h2 := slope_diff hφ hK hd (le_max_right _ _)
    generalize stepCurve P ode cfg t x nextX s.uList s'.deltaU = φ at h1 h2 ⊢
    have e : cfg.dt⁻¹ • (φ cfg.dt - φ 0) - cfg.delta⁻¹ • (φ cfg.delta - φ 0) =
        (cfg.dt⁻¹ • (φ cfg.dt - φ 0) - φ' 0) + (-1 : ℝ) • (cfg.delta⁻¹ • (φ cfg.delta - φ 0) - φ' 0) := by module
    rw [e]
    refine (norm2_add _ _).trans ?_
    rw [norm2_smul, abs_neg, abs_one, one_mul]
    linarith)
  rwa [abs_of_pos hdt] at this

variable {L P ode simOde cfg}

/-- The residual at the start of round `k` of the simulation. -/
noncomputable def Trajectory.residual (T : Trajectory L P ode simOde cfg N) (k : ℕ) : Vec (N * m) ℝ :=
  flatten (dhduList P ode cfg (k * cfg.dt) (T.x k) (T.mem k).uList)

/-- The residual during round `k`. -/
noncomputable def Trajectory.curve (T : Trajectory L P ode simOde cfg N) (k : ℕ) (τ : ℝ) : Vec (N * m) ℝ :=
  stepCurve P ode cfg (k * cfg.dt) (T.x k) (T.x (k + 1)) (T.mem k).uList (T.mem (k + 1)).deltaU τ

/-- The error of round `k`: what the linear equation is off by, and the difference of the mean slopes. -/
noncomputable def Trajectory.defect (T : Trajectory L P ode simOde cfg N) (k : ℕ) : ℝ :=
  Gmres.norm2 (cfg.delta⁻¹ • (T.curve k cfg.delta - (1 - cfg.zeta * cfg.delta) • T.curve k 0)) +
  Gmres.norm2 (cfg.dt⁻¹ • (T.curve k cfg.dt - T.curve k 0) - cfg.delta⁻¹ • (T.curve k cfg.delta - T.curve k 0))

theorem Trajectory.residual_succ (T : Trajectory L P ode simOde cfg N) (hd : cfg.delta ≠ 0) (hdt : 0 < cfg.dt) (k : ℕ) :
    Gmres.norm2 (T.residual (k + 1) - (1 - cfg.zeta * cfg.dt) • T.residual k) ≤ cfg.dt * T.defect k := by
  have h := C108_step L P ode cfg hd hdt.ne' (T.control k) le_rfl le_rfl
  rw [abs_of_pos hdt] at h
  unfold Trajectory.residual
  rw [show ((k + 1 : ℕ) : ℝ) * cfg.dt = k * cfg.dt + cfg.dt by push_cast; ring]
  exact h

/-- A sequence that contracts by `q` up to an error `e`. -/
theorem contract_le {a : ℕ → ℝ} {q e : ℝ} (hq : 0 ≤ q) {k : ℕ} (h : ∀ j < k, a (j + 1) ≤ q * a j + e) :
    a k ≤ q ^ k * a 0 + e * ∑ j ∈ range k, q ^ j := by
  induction k with
  | zero => simp
  | succ k ih =>
    have h1 := ih fun j hj => h j (by omega)
    have h2 := h k (by omega)
    have h3 := mul_le_mul_of_nonneg_left h1 hq
    rw [sum_range_succ', pow_zero]
    have : ∑ j ∈ range k, q ^ (j + 1) = q * ∑ j ∈ range k, q ^ j := by
      rw [mul_sum]; exact sum_congr rfl fun j _ => by ring
    rw [this, pow_succ]
    calc a (k + 1) ≤ q * a k + e := h2
      _ ≤ q * (q ^ k * a 0 + e * ∑ j ∈ range k, q ^ j) + e := by linarith
      _ = _ := by ring

theorem Trajectory.residual_le (T : Trajectory L P ode simOde cfg N) (hd : cfg.delta ≠ 0) (hdt : 0 < cfg.dt) {ε : ℝ} {k : ℕ}
    (hε : ∀ j < k, T.defect j ≤ ε) :
    Gmres.norm2 (T.residual k) ≤ |1 - cfg.zeta * cfg.dt| ^ k * Gmres.norm2 (T.residual 0) +
      cfg.dt * ε * ∑ j ∈ range k, |1 - cfg.zeta * cfg.dt| ^ j := by
  refine contract_le (a := fun k => Gmres.norm2 (T.residual k)) (abs_nonneg _) fun j hj => ?_
  have h1 := norm2_sub_le (T.residual (j + 1)) ((1 - cfg.zeta * cfg.dt) • T.residual j)
  rw [norm2_smul] at h1
  have h2 := T.residual_succ hd hdt j
  have h3 := mul_le_mul_of_nonneg_left (hε j hj) hdt.le
  linarith

variable (L P ode simOde cfg)

/-- **C108**, simulation: with the parameters for which `run` returns (C54) there is a trajectory of `run` such that all recorded errors are
bounded as follows.  Let `q = |1 - ζ dt|`.  If the defect (error of the linear equation plus difference of slopes) is at most `ε` in
all rounds before `k` then the error recorded in round `k` is at most `q^k` times the one of round 0 plus `dt ε (1 + q + … + q^(k-1))`. -/
theorem C108_run (hdt : 0 < cfg.dt) (hd : cfg.dumpStep ≠ 0) (hN : 0 < cfg.divideNum) (hk : 0 ≤ cfg.kMax) (hδ : cfg.delta ≠ 0) :
    ∃ (T : Trajectory L P ode simOde cfg cfg.divideNum.toNat) (s : _),
      run L P ode simOde cfg = .ok s ∧ s.dump = ((List.range s.i).filter fun j : ℕ => cfg.dumpStep ∣ (j : ℤ)).map T.line ∧
      ∀ (k : ℕ) (ε : ℝ), (∀ j < k, T.defect j ≤ ε) →
        (T.line k).err ≤ |1 - cfg.zeta * cfg.dt| ^ k * (T.line 0).err + cfg.dt * ε * ∑ j ∈ range k, |1 - cfg.zeta * cfg.dt| ^ j := by
  obtain ⟨T, s, h, _, _, _, _, _, h7⟩ := C54_run L P ode simOde cfg hdt hd hN hk
  exact ⟨T, s, h, h7, fun k ε hε => T.residual_le hδ hdt hε⟩

variable {L P ode simOde cfg}

/-- **C108**, residuals affine in inputs and state: let the residual be `M U + G x + c` at all times, with an invertible `M`, and let the limit on
the GMRES rounds be at least the number of unknowns.  Then the residual after round `k` is `1 - ζ dt` times the one before it, up to
`1e-10 dt` times the norm of `ζ` times the latter plus `G` times the velocity of the state. -/
theorem C108_affine (hL : L.Exact) (hδ : 0 < cfg.delta) (hdt : 0 < cfg.dt) (hk : ((N * m : ℕ) : ℤ) ≤ cfg.kMax)
    (M : Mat (N * m) (N * m) ℝ) (G : Mat (N * m) n ℝ) (c : Vec (N * m) ℝ) (hM : IsUnit M.det)
    (haff : ∀ (t : ℝ) (x : Vec n ℝ) (U : Fin N → Vec m ℝ), flatten (dhduList P ode cfg t x U) = M *ᵥ flatten U + G *ᵥ x + c)
    (T : Trajectory L P ode simOde cfg N) (k : ℕ) :
    Gmres.norm2 (T.residual (k + 1) - (1 - cfg.zeta * cfg.dt) • T.residual k) ≤
      1 / 10 ^ 10 * cfg.dt * Gmres.norm2 (cfg.zeta • T.residual k + cfg.dt⁻¹ • (G *ᵥ (T.x (k + 1) - T.x k))) := by
  have hg := C52_gmres L P ode cfg hL hδ.ne' hk (T.control k) M
    (G *ᵥ ((1 - cfg.delta / cfg.dt) • T.x k + (cfg.delta / cfg.dt) • T.x (k + 1)) + c) hM (fun V => by rw [haff, add_assoc])
  dsimp only at hg
  have hcurve : ∀ τ, T.curve k τ = T.residual k + τ • (M *ᵥ (T.mem (k + 1)).deltaU + cfg.dt⁻¹ • (G *ᵥ (T.x (k + 1) - T.x k))) := by
    intro τ
    unfold Trajectory.curve stepCurve Trajectory.residual
    rw [haff, haff, flatten_add, flatten_smul, show flatten (fun i => segment (T.mem (k + 1)).deltaU i) = (T.mem (k + 1)).deltaU from C53_flatten_segment _,
      show (1 - τ / cfg.dt) • T.x k + (τ / cfg.dt) • T.x (k + 1) = T.x k + (τ * cfg.dt⁻¹) • (T.x (k + 1) - T.x k) by
        rw [div_eq_mul_inv]; module,
      mulVec_add, mulVec_add, mulVec_smul, mulVec_smul, mul_smul]
    module
  have hρ : Gmres.norm2 (cfg.delta⁻¹ • (T.curve k cfg.delta - (1 - cfg.zeta * cfg.delta) • T.curve k 0)) ≤
      1 / 10 ^ 10 * Gmres.norm2 (cfg.zeta • T.residual k + cfg.dt⁻¹ • (G *ᵥ (T.x (k + 1) - T.x k))) := by
    have e0 : T.curve k 0 = T.residual k := by rw [hcurve]; module
    have e : flatten (dhduList P ode cfg (k * cfg.dt + cfg.delta)
          ((1 - cfg.delta / cfg.dt) • T.x k + (cfg.delta / cfg.dt) • T.x (k + 1)) (T.mem k).uList) -
        (1 - cfg.zeta * cfg.delta) • flatten (dhduList P ode cfg (k * cfg.dt) (T.x k) (T.mem k).uList) =
        cfg.delta • (cfg.zeta • T.residual k + cfg.dt⁻¹ • (G *ᵥ (T.x (k + 1) - T.x k))) := by
      unfold Trajectory.residual
      rw [haff, haff, show (1 - cfg.delta / cfg.dt) • T.x k + (cfg.delta / cfg.dt) • T.x (k + 1) =
          T.x k + (cfg.delta * cfg.dt⁻¹) • (T.x (k + 1) - T.x k) by rw [div_eq_mul_inv]; module,
        mulVec_add, mulVec_smul, mul_smul]
      module
    rw [e, norm2_smul, abs_of_pos hδ] at hg
    rw [norm2_smul, abs_of_pos (inv_pos.mpr hδ), inv_mul_le_iff₀ hδ, e0]
    refine le_trans hg (le_of_eq ?_)
    ring
  have hκ : Gmres.norm2 (cfg.dt⁻¹ • (T.curve k cfg.dt - T.curve k 0) - cfg.delta⁻¹ • (T.curve k cfg.delta - T.curve k 0)) = 0 := by
    rw [hcurve, hcurve cfg.delta, hcurve 0]
    generalize M *ᵥ (T.mem (k + 1)).deltaU + cfg.dt⁻¹ • (G *ᵥ (T.x (k + 1) - T.x k)) = w
    have : cfg.dt⁻¹ • (T.residual k + cfg.dt • w - (T.residual k + (0 : ℝ) • w)) -
        cfg.delta⁻¹ • (T.residual k + cfg.delta • w - (T.residual k + (0 : ℝ) • w)) = 0 := by
      rw [zero_smul, add_zero, add_sub_cancel_left, add_sub_cancel_left, smul_smul, smul_smul,
        inv_mul_cancel₀ hdt.ne', inv_mul_cancel₀ hδ.ne', sub_self]
    rw [this]
    simp [Gmres.norm2]
  have h := T.residual_succ hδ.ne' hdt k
  unfold Trajectory.defect at h
  rw [hκ, add_zero] at h
  calc _ ≤ _ := h
    _ ≤ _ := mul_le_mul_of_nonneg_left hρ hdt.le
    _ = _ := by ring

/-- **C108**, residuals that do not depend on the state: every recorded error is between `(|1 - ζ dt| ∓ 1e-10 |ζ| dt)^k` times the first one. -/
theorem C108_rate (hL : L.Exact) (hδ : 0 < cfg.delta) (hdt : 0 < cfg.dt) (hk : ((N * m : ℕ) : ℤ) ≤ cfg.kMax)
    (M : Mat (N * m) (N * m) ℝ) (c : Vec (N * m) ℝ) (hM : IsUnit M.det)
    (haff : ∀ (t : ℝ) (x : Vec n ℝ) (U : Fin N → Vec m ℝ), flatten (dhduList P ode cfg t x U) = M *ᵥ flatten U + c)
    (T : Trajectory L P ode simOde cfg N) (k : ℕ) :
    (T.line k).err ≤ (|1 - cfg.zeta * cfg.dt| + 1 / 10 ^ 10 * (|cfg.zeta| * cfg.dt)) ^ k * (T.line 0).err ∧
    (0 ≤ |1 - cfg.zeta * cfg.dt| - 1 / 10 ^ 10 * (|cfg.zeta| * cfg.dt) →
      (|1 - cfg.zeta * cfg.dt| - 1 / 10 ^ 10 * (|cfg.zeta| * cfg.dt)) ^ k * (T.line 0).err ≤ (T.line k).err) := by
  change Gmres.norm2 (T.residual k) ≤ _ * Gmres.norm2 (T.residual 0) ∧ (_ → _ * Gmres.norm2 (T.residual 0) ≤ Gmres.norm2 (T.residual k))
  have step : ∀ k, Gmres.norm2 (T.residual (k + 1) - (1 - cfg.zeta * cfg.dt) • T.residual k) ≤
      1 / 10 ^ 10 * (|cfg.zeta| * cfg.dt) * Gmres.norm2 (T.residual k) := by
    intro k
    have h := C108_affine hL hδ hdt hk M 0 c hM (fun t x U => by rw [haff, zero_mulVec, add_zero]) T k
    rw [zero_mulVec, smul_zero, add_zero, norm2_smul] at h
    refine h.trans (le_of_eq ?_)
    ring
  induction k with
  | zero => simp
  | succ k ih =>
    have h1 := step k
    have h2 := norm2_sub_le (T.residual (k + 1)) ((1 - cfg.zeta * cfg.dt) • T.residual k)
    have h3 := norm2_sub_ge (T.residual (k + 1)) ((1 - cfg.zeta * cfg.dt) • T.residual k)
    rw [norm2_smul] at h2 h3
    set q := |1 - cfg.zeta * cfg.dt|
    set e := 1 / 10 ^ 10 * (|cfg.zeta| * cfg.dt) with he
    have he0 : 0 ≤ e := by positivity
    have hq0 : 0 ≤ q := abs_nonneg _
    refine ⟨?_, fun h => ?_⟩
    · calc Gmres.norm2 (T.residual (k + 1)) ≤ (q + e) * Gmres.norm2 (T.residual k) := by linarith
        _ ≤ (q + e) * ((q + e) ^ k * Gmres.norm2 (T.residual 0)) := mul_le_mul_of_nonneg_left ih.1 (by linarith)
        _ = _ := by ring
    · calc (q - e) ^ (k + 1) * Gmres.norm2 (T.residual 0) = (q - e) * ((q - e) ^ k * Gmres.norm2 (T.residual 0)) := by ring
        _ ≤ (q - e) * Gmres.norm2 (T.residual k) := mul_le_mul_of_nonneg_left (ih.2 h) h
        _ ≤ _ := by linarith

end Nmpc.Cgmres
