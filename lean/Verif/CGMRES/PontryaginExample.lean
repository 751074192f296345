import Verif.CGMRES.PontryaginProps
import Verif.CGMRES.TrackingExamples
import Verif.CGMRES.OrderExamples

/-!
# A concrete case for C148
-/

namespace Nmpc.Cgmres

open Set OdeOrder Finset Matrix

/-- `x' = -x` whatever the input is, with the cost `u² / 2`.  The initial guess is off by 5e-7, which `setup` accepts. -/
noncomputable def drifting : Problem 1 1 ℝ := { inputOnly with stateEq := fun _ x _ => -x, x0 := ![2] }

theorem drifting_residual {N : ℕ} (cfg : Config ℝ) (t : ℝ) (x : Vec 1 ℝ) (U : Fin N → Vec 1 ℝ) : dhduList drifting eulerOde cfg t x U = U := by
  funext i
  rw [dhduList_eq]
  rfl

theorem drifting_extremal {N : ℕ} (t D : ℝ) (U : Fin N → Vec 1 ℝ) (x : Vec 1 ℝ) :
    Extremal drifting t D U (fun s => Real.exp (t - s) • x) fun _ => 0 where
  state := by
    intro i hi s hs
    have h1 := ((Real.hasDerivAt_exp (t - s)).comp s ((hasDerivAt_id s).const_sub t)).smul_const x
    have e : (Real.exp (t - s) * -1) • x = -(Real.exp (t - s) • x) := by module
    rw [e] at h1
    exact h1.hasDerivWithinAt
  costate := fun i hi s hs => hasDerivWithinAt_const _ _ _
  terminal := rfl

theorem drifting_smooth : ContDiff ℝ 1 (joint drifting.stateEq) ∧ ContDiff ℝ 1 (joint drifting.costateEq) ∧
    (ContDiff ℝ 1 fun q : ℝ × Vec 1 ℝ => drifting.dphidx q.1 q.2) ∧
    ContDiff ℝ 1 fun q : ℝ × Vec 1 ℝ × Vec 1 ℝ × Vec 1 ℝ => drifting.dhdu q.1 q.2.1 q.2.2.1 q.2.2.2 := by
  refine ⟨?_, ?_, ?_, ?_⟩
  all_goals unfold drifting inputOnly; (try unfold joint); dsimp only; fun_prop

theorem drifting_setup (L : Gmres.Dense ℝ) (cfg : Config ℝ) (N : ℕ) :
    setup L drifting cfg N = .ok ({ uList := fun _ => inputOnly.u0, deltaU := fun _ => 0, dhdu := fun _ => inputOnly.u0 }, inputOnly.u0) := by
  unfold setup setupLoop
  have : leb (vnorm (drifting.dhdu 0 drifting.x0 drifting.u0 (drifting.dphidx 0 drifting.x0))) (lit (1 / 10 ^ 6)) = true := by
    rw [leb_real, Gmres.vnorm_norm2]
    change Gmres.norm2 inputOnly.u0 ≤ _
    rw [inputOnly_norm, lit_real]
    norm_num
  dsimp only
  rw [if_pos this]
  rfl

/-- The states of the simulation stay within `[-2, 2]`. -/
theorem drifting_bound {L : Gmres.Dense ℝ} {cfg : Config ℝ} {N : ℕ} (T : Trajectory L drifting eulerOde eulerOde cfg N) (h0 : 0 < cfg.dt) (h1 : cfg.dt ≤ 1)
    (k : ℕ) : ‖T.x k‖ ≤ 2 := by
  induction k with
  | zero =>
    rw [T.x0]
    refine (pi_norm_le_iff_of_nonneg (by norm_num)).2 fun j => ?_
    fin_cases j
    simp [drifting]
  | succ k ih =>
    have e : T.x (k + 1) = (1 - cfg.dt) • T.x k := by
      rw [T.plant k]
      show euler _ _ _ _ _ = _
      rw [euler_real]
      funext j
      simp [drifting]
      ring
    rw [e, norm_smul, Real.norm_of_nonneg (by linarith)]
    nlinarith [norm_nonneg (T.x k)]

/-- **C148**, a concrete case: for every number of stages from some number on and all steps up to 1, `run` returns, and as long as the planned inputs are within `[-2, 2]`, which they
are at the start, they nearly minimise the Hamiltonian. -/
example : ∃ (C : ℝ) (N₀ : ℕ), ∀ (N : ℕ) (dt : ℝ), N₀ ≤ N → 0 < N → 0 < dt → dt ≤ 1 →
    let cfg : Config ℝ := { (defaultConfig : Config ℝ) with divideNum := N, dt := dt }
    ∃ (T : Trajectory Gmres.realDense drifting eulerOde eulerOde cfg N) (s : _), run Gmres.realDense drifting eulerOde eulerOde cfg = .ok s ∧
      (∀ i, ‖(T.mem 0).uList i‖ ≤ 2) ∧
      ∀ (k : ℕ) (ε : ℝ), (∀ j < k, T.defect j ≤ ε) → k * dt ≤ 2 → (∀ i, ‖(T.mem k).uList i‖ ≤ 2) → ∀ i : Fin N,
        ‖(T.mem k).uList i‖ ≤ |1 - 1000 * dt| ^ k * (T.line 0).err + dt * ε * ∑ j ∈ range k, |1 - 1000 * dt| ^ j + C / N := by
  obtain ⟨h1, h2, h3, h4⟩ := drifting_smooth
  obtain ⟨C, N0, key⟩ := C148_run drifting eulerOde euler_firstOrder (defaultConfig : Config ℝ).steadyHorizon (defaultConfig : Config ℝ).increaseRatio
    (by norm_num [defaultConfig]) (by norm_num [defaultConfig]) h1 h2 h3 h4 2
  refine ⟨C, N0, ?_⟩
  intro N dt hN hN' hdt hdt1 cfg
  obtain ⟨T, s, k1, -, k3⟩ := key Gmres.realDense eulerOde cfg rfl rfl (by simpa [cfg] using hN) (by simpa [cfg] using hN') hdt
    (by simp [cfg, defaultConfig]) (by simp [cfg, defaultConfig]) (by simp [cfg, defaultConfig])
  refine ⟨T, s, k1, fun i => ?_, fun k ε hε hk hU i => ?_⟩
  · have h := T.start
    rw [drifting_setup] at h
    injection h with h
    injection h with h5 h6
    have : (T.mem 0).uList i = inputOnly.u0 := by rw [← h5]
    rw [this]
    refine (pi_norm_le_iff_of_nonneg (by norm_num)).2 fun j => ?_
    fin_cases j
    simp [inputOnly]
    norm_num
  · have hz : cfg.zeta = 1000 := by simp [cfg, defaultConfig]
    have hx := drifting_extremal (k * cfg.dt) (horizonDuration cfg (k * cfg.dt)) (T.mem k).uList (T.x k)
    have := k3 k ε (fun s => Real.exp (k * cfg.dt - s) • T.x k) (fun _ => 0) hε hk hU (by simp) (fun s hs => by
      refine ⟨?_, by simp⟩
      rw [norm_smul, Real.norm_of_nonneg (Real.exp_pos _).le]
      have e1 : Real.exp (k * cfg.dt - s) ≤ 1 := Real.exp_le_one_iff.2 (by linarith [hs.1])
      have := drifting_bound T hdt hdt1 k
      nlinarith [norm_nonneg (T.x k), Real.exp_pos (k * cfg.dt - s)]) hx i
    rw [hz] at this
    exact this

end Nmpc.Cgmres
