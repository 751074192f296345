import Verif.CGMRES.Tracking
import Verif.CGMRES.Examples

/-!
# Concrete cases for C108
-/

namespace Nmpc.Cgmres

open Finset Matrix

/-- `∂H/∂u = u`: the cost is `u² / 2`, the state has no influence.  The initial guess is off by 5e-7, which `setup` accepts. -/
noncomputable def inputOnly : Problem 1 1 ℝ where
  stateEq := fun _ _ u => u
  costateEq := fun _ _ _ => 0
  dphidx := fun _ _ => 0
  dhdu := fun _ _ u _ => u
  x0 := ![0]
  u0 := ![1 / (2 * 10 ^ 6)]

theorem inputOnly_residual {N : ℕ} (cfg : Config ℝ) (t : ℝ) (x : Vec 1 ℝ) (U : Fin N → Vec 1 ℝ) :
    dhduList inputOnly eulerOde cfg t x U = U := by
  funext i
  rw [dhduList_eq]
  rfl

theorem inputOnly_norm : Gmres.norm2 inputOnly.u0 = 1 / (2 * 10 ^ 6) := by
  rw [← Gmres.vnorm_norm2, Gmres.vnorm_real]
  simp only [inputOnly, dotProduct, Fin.sum_univ_one, cons_val_fin_one]
  exact Real.sqrt_mul_self (by positivity)

theorem inputOnly_setup (L : Gmres.Dense ℝ) (cfg : Config ℝ) (N : ℕ) :
    setup L inputOnly cfg N = .ok ({ uList := fun _ => inputOnly.u0, deltaU := fun _ => 0, dhdu := fun _ => inputOnly.u0 }, inputOnly.u0) := by
  unfold setup setupLoop
  have : leb (vnorm (inputOnly.dhdu 0 inputOnly.x0 inputOnly.u0 (inputOnly.dphidx 0 inputOnly.x0))) (lit (1 / 10 ^ 6)) = true := by
    rw [leb_real, Gmres.vnorm_norm2]
    change Gmres.norm2 inputOnly.u0 ≤ _
    rw [inputOnly_norm, lit_real]
    norm_num
  dsimp only
  rw [if_pos this]
  rfl

theorem inputOnly_first {L : Gmres.Dense ℝ} {simOde : Ode ℝ} {cfg : Config ℝ} (T : Trajectory L inputOnly eulerOde simOde cfg 1) :
    (T.line 0).err = 1 / (2 * 10 ^ 6) := by
  have h := T.start
  rw [inputOnly_setup] at h
  injection h with h
  injection h with h1 h2
  unfold Trajectory.line
  dsimp only
  rw [inputOnly_residual, ← h1, ← inputOnly_norm]
  congr 1
  funext k
  have : k.modNat (m := 1) (n := 1) = k := Subsingleton.elim (α := Fin 1) _ _
  simp only [flatten]
  congr 1

theorem inputOnly_affine {N : ℕ} (cfg : Config ℝ) (t : ℝ) (x : Vec 1 ℝ) (U : Fin N → Vec 1 ℝ) :
    flatten (dhduList inputOnly eulerOde cfg t x U) = (1 : Mat (N * 1) (N * 1) ℝ) *ᵥ flatten U + 0 := by
  rw [inputOnly_residual, one_mulVec, add_zero]

/-- Parameters with `ζ dt = z`, one stage, every round dumped. -/
noncomputable def rateCfg (z D : ℝ) : Config ℝ :=
  { (defaultConfig : Config ℝ) with simDuration := D, divideNum := 1, dt := 1, zeta := z, delta := 1 / 2, dumpStep := 1 }

/-- **C108**, instability: for `ζ dt = 3` the recorded errors of this problem grow at least by the factor 1.9 in every round. -/
theorem C108_unstable (D : ℕ) : ∃ s, run Gmres.realDense inputOnly eulerOde eulerOde (rateCfg 3 D) = .ok s ∧ s.dump.length = D + 1 ∧
    ∀ k (h : k < s.dump.length), (19 / 10) ^ k * (1 / (2 * 10 ^ 6)) ≤ s.dump[k].err := by
  obtain ⟨T, s, h, hi, _, _, _, _, hdump⟩ := C54_run Gmres.realDense inputOnly eulerOde eulerOde (rateCfg 3 D)
    (by simp [rateCfg]) (by simp [rateCfg]) (by simp [rateCfg]) (by simp [rateCfg, defaultConfig])
  have hi' : s.i = D + 1 := by
    have : ⌊(rateCfg 3 D).simDuration / (rateCfg 3 D).dt⌋ = (D : ℤ) := by
      simp [rateCfg]
    rw [this] at hi
    omega
  have hd : s.dump = (List.range (D + 1)).map T.line := by
    rw [hdump, hi']
    congr 1
    rw [List.filter_eq_self]
    intro j _
    simp [rateCfg]
  refine ⟨s, h, by rw [hd]; simp, fun k hk => ?_⟩
  have e : s.dump[k] = T.line k := by simp [hd]
  rw [e]
  have h1 := (C108_rate (L := Gmres.realDense) (cfg := rateCfg 3 D) (N := 1) Gmres.realDense_exact (by simp [rateCfg]) (by simp [rateCfg]) (by simp [rateCfg, defaultConfig])
    1 0 (by rw [det_one]; exact isUnit_one) (fun t x U => inputOnly_affine _ t x U) T k).2
  have h0 := inputOnly_first (cfg := rateCfg 3 D) T
  have hq : |1 - (rateCfg 3 D).zeta * (rateCfg 3 D).dt| = 2 := by
    simp only [rateCfg]; norm_num
  have he : |(rateCfg 3 D).zeta| * (rateCfg 3 D).dt = 3 := by
    simp only [rateCfg]; norm_num
  rw [hq, he] at h1
  have h2 := h1 (by norm_num)
  rw [h0] at h2
  refine le_trans ?_ h2
  gcongr
  norm_num

/-- C108_rate, dead-beat: for `ζ dt = 1`, as with the default parameters, every round reduces the error of this problem by the factor 1e-10. -/
example (T : Trajectory Gmres.realDense inputOnly eulerOde eulerOde (rateCfg 1 10) 1) (k : ℕ) :
    (T.line k).err ≤ (1 / 10 ^ 10) ^ k * (1 / (2 * 10 ^ 6)) := by
  have h1 := (C108_rate (L := Gmres.realDense) (cfg := rateCfg 1 10) (N := 1) Gmres.realDense_exact (by simp [rateCfg]) (by simp [rateCfg]) (by simp [rateCfg, defaultConfig])
    1 0 (by rw [det_one]; exact isUnit_one) (fun t x U => inputOnly_affine _ t x U) T k).1
  have h0 := inputOnly_first (cfg := rateCfg 1 10) T
  have hq : |1 - (rateCfg 1 10).zeta * (rateCfg 1 10).dt| = 0 := by
    simp only [rateCfg]; norm_num
  have he : |(rateCfg 1 10).zeta| * (rateCfg 1 10).dt = 1 := by
    simp only [rateCfg]; norm_num
  rw [hq, he, h0, zero_add, mul_one] at h1
  exact h1

/-- The default parameters have `ζ dt = 1`. -/
example : (defaultConfig : Config ℝ).zeta * (defaultConfig : Config ℝ).dt = 1 := by simp [defaultConfig]

/-- C108_affine with a coupled state: the one-stage problem `lq` of the C52 examples, with the horizon kept at zero. -/
example (T : Trajectory Gmres.realDense lq eulerOde eulerOde flatCfg 1) (k : ℕ) :
    Gmres.norm2 (T.residual (k + 1)) ≤ 1 / 10 ^ 10 * Gmres.norm2 (T.residual k + (fun _ => T.x (k + 1) 0 - T.x k 0)) := by
  have h := C108_affine (cfg := flatCfg) (N := 1) Gmres.realDense_exact (by simp [flatCfg]) (by simp [flatCfg]) (by simp [flatCfg, defaultConfig])
    1 (fun _ _ => 1) 0 (by rw [det_one]; exact isUnit_one) (fun t x U => by
      rw [lq_residual, flat_step, add_zero, one_smul, one_mulVec, add_zero]
      congr 1
      funext k
      simp [mulVec, dotProduct]) T k
  have e : (fun _ _ => 1 : Mat (1 * 1) 1 ℝ) *ᵥ (T.x (k + 1) - T.x k) = fun _ => T.x (k + 1) 0 - T.x k 0 := by
    funext k
    simp [mulVec, dotProduct]
  rw [e] at h
  simpa [flatCfg, one_smul] using h

/-- `∂H/∂u = u - t²`: a moving optimum. -/
noncomputable def moving : Problem 1 1 ℝ := { inputOnly with dhdu := fun t _ u _ => u - fun _ => t ^ 2 }

theorem moving_curve (cfg : Config ℝ) (t : ℝ) (x nextX : Vec 1 ℝ) (U : Fin 1 → Vec 1 ℝ) (d : Vec (1 * 1) ℝ) :
    stepCurve moving eulerOde cfg t x nextX U d = fun τ => flatten U + τ • d - fun _ => (t + τ) ^ 2 := by
  funext τ
  unfold stepCurve
  have : dhduList moving eulerOde cfg (t + τ) ((1 - τ / cfg.dt) • x + (τ / cfg.dt) • nextX) (fun i => U i + τ • segment d i) =
      fun i => (U i + τ • segment d i) + fun _ => -(t + τ) ^ 2 := by
    funext i
    rw [dhduList_eq]
    have hi : (i : ℕ) = 0 := by omega
    simp only [moving, sub_eq_add_neg]
    rw [hi]
    funext j
    simp
  rw [this, flatten_add, flatten_add, flatten_smul, show flatten (fun i => segment d i) = d from C53_flatten_segment _]
  funext j
  simp [flatten, sub_eq_add_neg]

/-- C108_smooth: its hypotheses are met with `K = 2`. -/
example (cfg : Config ℝ) (hd : 0 < cfg.delta) (hdt : 0 < cfg.dt) {t : ℝ} {x nextX : Vec 1 ℝ} {s s' : Mem 1 1 ℝ} {u : Vec 1 ℝ}
    (h : calcControlInput Gmres.realDense moving eulerOde cfg t x nextX s = .ok (s', u)) {ρ : ℝ}
    (hρ : Gmres.norm2 (cfg.delta⁻¹ • (stepCurve moving eulerOde cfg t x nextX s.uList s'.deltaU cfg.delta -
      (1 - cfg.zeta * cfg.delta) • stepCurve moving eulerOde cfg t x nextX s.uList s'.deltaU 0)) ≤ ρ) :
    Gmres.norm2 (flatten (dhduList moving eulerOde cfg (t + cfg.dt) nextX s'.uList) -
      (1 - cfg.zeta * cfg.dt) • flatten (dhduList moving eulerOde cfg t x s.uList)) ≤ cfg.dt * (ρ + (cfg.dt + cfg.delta)) := by
  have key := C108_smooth (φ' := fun τ => s'.deltaU - fun _ => 2 * (t + τ)) (K := 2) _ moving eulerOde cfg hd hdt h hρ
    (fun τ _ => by
      rw [moving_curve]
      rw [hasDerivAt_pi]
      intro j
      have h1 : HasDerivAt (fun τ : ℝ => flatten s.uList j + τ * s'.deltaU j) (s'.deltaU j) τ := by
        have := ((hasDerivAt_id τ).mul_const (s'.deltaU j)).const_add (flatten s.uList j)
        simpa using this
      have h2 : HasDerivAt (fun τ : ℝ => (t + τ) ^ 2) (2 * (t + τ)) τ := by
        have := ((hasDerivAt_id τ).const_add t).pow 2
        exact this.congr_deriv (by simp)
      exact h1.sub h2)
    (fun τ hτ => by
      have e : (s'.deltaU - fun _ => 2 * (t + τ)) - (s'.deltaU - fun _ => 2 * (t + 0)) = (-(2 * τ)) • (fun _ => 1 : Vec (1 * 1) ℝ) := by
        funext j; simp; ring
      rw [e, norm2_smul, abs_neg, abs_of_nonneg (by linarith [hτ.1])]
      have : Gmres.norm2 (fun _ => 1 : Vec (1 * 1) ℝ) = 1 := by
        rw [← Gmres.vnorm_norm2, Gmres.vnorm_real]
        simp [dotProduct]
      rw [this, mul_one])
  refine key.trans (le_of_eq ?_)
  ring

end Nmpc.Cgmres
