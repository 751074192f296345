import Verif.CGMRES.FewIter
import Verif.CGMRES.TrackingExamples

/-!
# C/GMRES with fewer GMRES iterations than unknowns (C112)
-/

namespace Nmpc.Cgmres

open Finset Matrix

variable {n m N : ℕ} {L : Gmres.Dense ℝ} {P : Problem n m ℝ} {ode simOde : Ode ℝ} {cfg : Config ℝ}

/-- **C112**, rounds: let the residual be `M U + G x + c` with a positive definite matrix `M` (`μ |v|² ≤ v·Mv`, `|Mv| ≤ Λ |v|`), let `q` be
`(1 - μ²/Λ²)^(k_max/2)` and `w k` the change of `G x` per time in round `k`.  The residual of the next round is `1 - ζ dt` times the
present one minus `dt` times the rest of the linear equation; the rest of the first round is at most `max(q, 1e-10)` times the norm of its
right-hand side; the rest of each later round is at most `q` times the norm of `ζ² dt F + (1 + ζ dt) rest - (w' - w)`, or within
the tolerance of GMRES. -/
theorem C112_rounds (hL : L.Exact) (hδ : cfg.delta ≠ 0) (hdt : 0 < cfg.dt) (M : Mat (N * m) (N * m) ℝ)
    (G : Mat (N * m) n ℝ) (c : Vec (N * m) ℝ) {μ Λ : ℝ} (hμ : 0 < μ) (hΛ : 0 < Λ) (hm : ∀ v, μ * (v ⬝ᵥ v) ≤ v ⬝ᵥ M *ᵥ v)
    (hM : ∀ v, Gmres.norm2 (M *ᵥ v) ≤ Λ * Gmres.norm2 v)
    (haff : ∀ (t : ℝ) (x : Vec n ℝ) (U : Fin N → Vec m ℝ), flatten (dhduList P ode cfg t x U) = M *ᵥ flatten U + G *ᵥ x + c)
    (T : Trajectory L P ode simOde cfg N) :
    let q := √(1 - μ ^ 2 / Λ ^ 2) ^ cfg.kMax.toNat
    let w := fun k => cfg.dt⁻¹ • (G *ᵥ (T.x (k + 1) - T.x k))
    let rest := fun k => -(cfg.zeta • T.residual k + w k) - M *ᵥ (T.mem (k + 1)).deltaU
    (∀ k, T.residual (k + 1) = (1 - cfg.zeta * cfg.dt) • T.residual k - cfg.dt • rest k) ∧
    Gmres.norm2 (rest 0) ≤ max q (1 / 10 ^ 10) * Gmres.norm2 (cfg.zeta • T.residual 0 + w 0) ∧
    ∀ k, Gmres.norm2 (rest (k + 1)) ≤
      max (q * Gmres.norm2 ((cfg.zeta ^ 2 * cfg.dt) • T.residual k + (1 + cfg.zeta * cfg.dt) • rest k - (w (k + 1) - w k)))
        (1 / 10 ^ 10 * Gmres.norm2 (cfg.zeta • T.residual (k + 1) + w (k + 1))) := by
  intro q w rest
  have hneg : ∀ v : Vec (N * m) ℝ, Gmres.norm2 (-v) = Gmres.norm2 v := by
    intro v
    unfold Gmres.norm2
    rw [WithLp.toLp_neg, norm_neg]
  have step : ∀ k, T.residual (k + 1) = (1 - cfg.zeta * cfg.dt) • T.residual k - cfg.dt • rest k := by
    intro k
    rw [(affine_round hδ hdt M G c haff T k).2]
    simp only [rest, w]
    module
  have solve : ∀ k, Gmres.norm2 (rest k) ≤ max (q * Gmres.norm2 (-(cfg.zeta • T.residual k + w k) - M *ᵥ (T.mem k).deltaU))
      (1 / 10 ^ 10 * Gmres.norm2 (cfg.zeta • T.residual k + w k)) := by
    intro k
    obtain ⟨r, hr, hx⟩ := (affine_round hδ hdt M G c haff T k).1
    have h := (Gmres.C111_rate L (gmresConfig cfg.kMax) _ _ hL M hμ hΛ hm hM (by simp [gmresConfig]) hr).2.2
      (max (q * Gmres.norm2 (-(cfg.zeta • T.residual k + w k) - M *ᵥ (T.mem k).deltaU))
        (1 / 10 ^ 10 * Gmres.norm2 (cfg.zeta • T.residual k + w k)))
      (le_max_left _ _) (by
        refine le_trans (le_of_eq ?_) (le_max_right _ _)
        rw [hneg]
        simp [gmresConfig, w])
    simp only [rest]
    rw [hx]
    exact h
  refine ⟨step, ?_, fun k => ?_⟩
  · have h := solve 0
    rw [setup_deltaU T.start, mulVec_zero, sub_zero, hneg, ← max_mul_of_nonneg _ _ (Gmres.norm2_nonneg _)] at h
    exact h
  · have h := solve (k + 1)
    have e : -(cfg.zeta • T.residual (k + 1) + w (k + 1)) - M *ᵥ (T.mem (k + 1)).deltaU =
        (cfg.zeta ^ 2 * cfg.dt) • T.residual k + (1 + cfg.zeta * cfg.dt) • rest k - (w (k + 1) - w k) := by
      rw [step k]
      simp only [rest]
      module
    rwa [e] at h

/-- **C112**, tracking: with `0 < ζ dt ≤ 1` and `q (1 + 2 ζ dt) + 1e-10 < 1` there are constants `θ < 1` and `K`, the same for all runs and states, such that the
error recorded in round `k` is at most `K θ^k` times the first one (plus the first change of `G x` per time) plus `K` times a bound on
`q |w' - w| + 1e-10 |w'|` over the rounds.  In particular `k_max` need not be as large as the number of unknowns. -/
theorem C112_tracking {ζ dt q : ℝ} (hζ : 0 < ζ) (hdt : 0 < dt) (ha : ζ * dt ≤ 1) (hq0 : 0 ≤ q) (hq : q * (1 + 2 * (ζ * dt)) + 1 / 10 ^ 10 < 1) :
    ∃ θ K : ℝ, 0 ≤ θ ∧ θ < 1 ∧ 0 ≤ K ∧ ∀ {n m N : ℕ} {L : Gmres.Dense ℝ} {P : Problem n m ℝ} {ode simOde : Ode ℝ} {cfg : Config ℝ}
      (_ : L.Exact) (_ : cfg.zeta = ζ) (_ : cfg.dt = dt) (_ : cfg.delta ≠ 0) (M : Mat (N * m) (N * m) ℝ)
      (G : Mat (N * m) n ℝ) (c : Vec (N * m) ℝ) {μ Λ : ℝ} (_ : 0 < μ) (_ : 0 < Λ) (_ : ∀ v, μ * (v ⬝ᵥ v) ≤ v ⬝ᵥ M *ᵥ v)
      (_ : ∀ v, Gmres.norm2 (M *ᵥ v) ≤ Λ * Gmres.norm2 v) (_ : √(1 - μ ^ 2 / Λ ^ 2) ^ cfg.kMax.toNat ≤ q)
      (_ : ∀ (t : ℝ) (x : Vec n ℝ) (U : Fin N → Vec m ℝ), flatten (dhduList P ode cfg t x U) = M *ᵥ flatten U + G *ᵥ x + c)
      (T : Trajectory L P ode simOde cfg N) {e : ℝ}
      (_ : ∀ k, q * Gmres.norm2 (dt⁻¹ • (G *ᵥ (T.x (k + 2) - T.x (k + 1))) - dt⁻¹ • (G *ᵥ (T.x (k + 1) - T.x k))) +
        1 / 10 ^ 10 * Gmres.norm2 (dt⁻¹ • (G *ᵥ (T.x (k + 2) - T.x (k + 1)))) ≤ e) (k : ℕ),
      (T.line k).err ≤ K * (θ ^ k * ((T.line 0).err + Gmres.norm2 (dt⁻¹ • (G *ᵥ (T.x 1 - T.x 0)))) + e) := by
  set a := ζ * dt with hadef
  have ha0 : 0 < a := mul_pos hζ hdt
  have hq1 : q < 1 := by nlinarith
  obtain ⟨θ, w, hθ0, hθ1, hw, hdec⟩ := pair_decay (A := 1 - a) (B := a) (C := q * a + 1 / 10 ^ 10 * (1 - a))
    (D := q * (1 + a) + 1 / 10 ^ 10 * a) (by linarith) ha0.le
    (by have := mul_nonneg hq0 ha0.le; linarith) (by nlinarith) (by linarith) (by nlinarith)
  have h1θ : 0 < 1 - θ := by linarith
  refine ⟨θ, (1 + w) * (1 + 1 / ζ) + w / (1 - θ) / ζ, hθ0, hθ1, by positivity, ?_⟩
  intro n m N L P ode simOde cfg hL hcζ hcdt hδ M G c μ Λ hμ hΛ hm hM hqk haff T e he k
  obtain ⟨h1, h2, h3⟩ := C112_rounds hL hδ (by rw [hcdt]; exact hdt) M G c hμ hΛ hm hM haff T
  rw [hcζ, hcdt] at h1 h2 h3
  set v := fun k => dt⁻¹ • (G *ᵥ (T.x (k + 1) - T.x k)) with hv
  set rest := fun k => -(ζ • T.residual k + v k) - M *ᵥ (T.mem (k + 1)).deltaU with hrest
  have hf0 : ∀ k, 0 ≤ Gmres.norm2 (T.residual k) := fun k => Gmres.norm2_nonneg _
  have hr0 : ∀ k, 0 ≤ Gmres.norm2 (rest k) := fun k => Gmres.norm2_nonneg _
  have he0 : 0 ≤ e := le_trans (by have := Gmres.norm2_nonneg (v 0); have := Gmres.norm2_nonneg (v 1 - v 0); have := Gmres.norm2_nonneg (v 1)
                                   exact add_nonneg (mul_nonneg hq0 (Gmres.norm2_nonneg _)) (mul_nonneg (by norm_num) (Gmres.norm2_nonneg _))) (he 0)
  have hneg : ∀ v : Vec (N * m) ℝ, Gmres.norm2 (-v) = Gmres.norm2 v := by
    intro v
    unfold Gmres.norm2
    rw [WithLp.toLp_neg, norm_neg]
  have hsub : ∀ u v : Vec (N * m) ℝ, Gmres.norm2 (u - v) ≤ Gmres.norm2 u + Gmres.norm2 v := by
    intro u v
    rw [sub_eq_add_neg, ← hneg v]
    exact norm2_add _ _
  have hf : ∀ k, ζ * Gmres.norm2 (T.residual (k + 1)) ≤ (1 - a) * (ζ * Gmres.norm2 (T.residual k)) + a * Gmres.norm2 (rest k) := by
    intro k
    rw [h1 k]
    have := hsub ((1 - ζ * dt) • T.residual k) (dt • rest k)
    rw [norm2_smul, norm2_smul, abs_of_nonneg (by linarith : 0 ≤ 1 - ζ * dt), abs_of_pos hdt] at this
    calc _ ≤ ζ * ((1 - ζ * dt) * Gmres.norm2 (T.residual k) + dt * Gmres.norm2 (rest k)) := mul_le_mul_of_nonneg_left this hζ.le
      _ = _ := by rw [hadef]; ring
  have hr : ∀ k, Gmres.norm2 (rest (k + 1)) ≤ (q * a + 1 / 10 ^ 10 * (1 - a)) * (ζ * Gmres.norm2 (T.residual k)) +
      (q * (1 + a) + 1 / 10 ^ 10 * a) * Gmres.norm2 (rest k) + e := by
    intro k
    have hk := he k
    change q * Gmres.norm2 (v (k + 1) - v k) + 1 / 10 ^ 10 * Gmres.norm2 (v (k + 1)) ≤ e at hk
    have hA : Gmres.norm2 ((ζ ^ 2 * dt) • T.residual k + (1 + ζ * dt) • rest k - (v (k + 1) - v k)) ≤
        a * (ζ * Gmres.norm2 (T.residual k)) + (1 + a) * Gmres.norm2 (rest k) + Gmres.norm2 (v (k + 1) - v k) := by
      refine (hsub _ _).trans (add_le_add ((norm2_add _ _).trans ?_) le_rfl)
      rw [norm2_smul, norm2_smul, abs_of_pos (by positivity), abs_of_pos (by linarith : 0 < 1 + ζ * dt)]
      refine le_of_eq ?_
      rw [hadef]; ring
    have hB : Gmres.norm2 (ζ • T.residual (k + 1) + v (k + 1)) ≤
        (1 - a) * (ζ * Gmres.norm2 (T.residual k)) + a * Gmres.norm2 (rest k) + Gmres.norm2 (v (k + 1)) := by
      refine (norm2_add _ _).trans (add_le_add ?_ le_rfl)
      rw [norm2_smul, abs_of_pos hζ]
      exact hf k
    have hq2 : √(1 - μ ^ 2 / Λ ^ 2) ^ cfg.kMax.toNat * Gmres.norm2 ((ζ ^ 2 * dt) • T.residual k + (1 + ζ * dt) • rest k - (v (k + 1) - v k)) ≤
        q * (a * (ζ * Gmres.norm2 (T.residual k)) + (1 + a) * Gmres.norm2 (rest k) + Gmres.norm2 (v (k + 1) - v k)) :=
      mul_le_mul hqk hA (Gmres.norm2_nonneg _) hq0
    have hB2 := mul_le_mul_of_nonneg_left hB (by norm_num : (0 : ℝ) ≤ 1 / 10 ^ 10)
    have hpos1 : 0 ≤ q * (a * (ζ * Gmres.norm2 (T.residual k)) + (1 + a) * Gmres.norm2 (rest k) + Gmres.norm2 (v (k + 1) - v k)) :=
      le_trans (mul_nonneg (by positivity) (Gmres.norm2_nonneg _)) hq2
    have hpos2 := le_trans (mul_nonneg (by norm_num : (0 : ℝ) ≤ 1 / 10 ^ 10) (Gmres.norm2_nonneg (ζ • T.residual (k + 1) + v (k + 1)))) hB2
    refine (h3 k).trans (max_le ?_ ?_)
    · refine hq2.trans ?_
      linarith
    · refine hB2.trans ?_
      linarith
  have hfin := hdec (fun k => ζ * Gmres.norm2 (T.residual k)) (fun k => Gmres.norm2 (rest k)) e
    (fun k => mul_nonneg hζ.le (hf0 k)) hr0 he0 hf hr k
  have hrest0 : Gmres.norm2 (rest 0) ≤ ζ * Gmres.norm2 (T.residual 0) + Gmres.norm2 (v 0) := by
    refine h2.trans ?_
    have hmax : max (√(1 - μ ^ 2 / Λ ^ 2) ^ cfg.kMax.toNat) (1 / 10 ^ 10) ≤ 1 := max_le (hqk.trans hq1.le) (by norm_num)
    refine (mul_le_of_le_one_left (Gmres.norm2_nonneg _) hmax).trans ((norm2_add _ _).trans ?_)
    rw [norm2_smul, abs_of_pos hζ]
  change Gmres.norm2 (T.residual k) ≤ _ * (θ ^ k * (Gmres.norm2 (T.residual 0) + Gmres.norm2 (v 0)) + e)
  have hF := hf0 0
  have hV := Gmres.norm2_nonneg (v 0)
  have hθk : 0 ≤ θ ^ k := pow_nonneg hθ0 k
  set F0 := Gmres.norm2 (T.residual 0)
  set V0 := Gmres.norm2 (v 0)
  have hmain : ζ * Gmres.norm2 (T.residual k) ≤ θ ^ k * ((1 + w) * (ζ * F0 + V0)) + w * e / (1 - θ) := by
    refine hfin.trans (add_le_add (mul_le_mul_of_nonneg_left ?_ hθk) le_rfl)
    have := mul_le_mul_of_nonneg_left hrest0 hw
    linarith
  have : Gmres.norm2 (T.residual k) ≤ (θ ^ k * ((1 + w) * (ζ * F0 + V0)) + w * e / (1 - θ)) / ζ := by
    rw [le_div_iff₀ hζ]
    linarith
  refine this.trans ?_
  have e1 : (θ ^ k * ((1 + w) * (ζ * F0 + V0)) + w * e / (1 - θ)) / ζ =
      (1 + w) * (θ ^ k * (F0 + 1 / ζ * V0)) + w / (1 - θ) / ζ * e := by field_simp
  rw [e1]
  have i1 : (1 + w) * (θ ^ k * (F0 + 1 / ζ * V0)) ≤ (1 + w) * (1 + 1 / ζ) * (θ ^ k * (F0 + V0)) := by
    have : F0 + 1 / ζ * V0 ≤ (1 + 1 / ζ) * (F0 + V0) := by
      have := mul_nonneg (by positivity : 0 ≤ 1 / ζ) hF
      nlinarith
    calc _ ≤ (1 + w) * (θ ^ k * ((1 + 1 / ζ) * (F0 + V0))) := by gcongr
      _ = _ := by ring
  have i2 : 0 ≤ w / (1 - θ) / ζ * (θ ^ k * (F0 + V0)) := by positivity
  have i3 : 0 ≤ (1 + w) * (1 + 1 / ζ) * e := by positivity
  nlinarith

/-- **C112**, no influence of the state: the recorded errors decay geometrically. -/
theorem C112_decay {ζ dt q : ℝ} (hζ : 0 < ζ) (hdt : 0 < dt) (ha : ζ * dt ≤ 1) (hq0 : 0 ≤ q) (hq : q * (1 + 2 * (ζ * dt)) + 1 / 10 ^ 10 < 1) :
    ∃ θ K : ℝ, 0 ≤ θ ∧ θ < 1 ∧ 0 ≤ K ∧ ∀ {n m N : ℕ} {L : Gmres.Dense ℝ} {P : Problem n m ℝ} {ode simOde : Ode ℝ} {cfg : Config ℝ}
      (_ : L.Exact) (_ : cfg.zeta = ζ) (_ : cfg.dt = dt) (_ : cfg.delta ≠ 0) (M : Mat (N * m) (N * m) ℝ)
      (c : Vec (N * m) ℝ) {μ Λ : ℝ} (_ : 0 < μ) (_ : 0 < Λ) (_ : ∀ v, μ * (v ⬝ᵥ v) ≤ v ⬝ᵥ M *ᵥ v)
      (_ : ∀ v, Gmres.norm2 (M *ᵥ v) ≤ Λ * Gmres.norm2 v) (_ : √(1 - μ ^ 2 / Λ ^ 2) ^ cfg.kMax.toNat ≤ q)
      (_ : ∀ (t : ℝ) (x : Vec n ℝ) (U : Fin N → Vec m ℝ), flatten (dhduList P ode cfg t x U) = M *ᵥ flatten U + c)
      (T : Trajectory L P ode simOde cfg N) (k : ℕ), (T.line k).err ≤ K * θ ^ k * (T.line 0).err := by
  obtain ⟨θ, K, h0, h1, hK, h⟩ := C112_tracking hζ hdt ha hq0 hq
  refine ⟨θ, K, h0, h1, hK, ?_⟩
  intro n m N L P ode simOde cfg hL hcζ hcdt hδ M c μ Λ hμ hΛ hm hM hqk haff T k
  have hz : ∀ v : Vec n ℝ, dt⁻¹ • ((0 : Mat (N * m) n ℝ) *ᵥ v) = 0 := fun v => by rw [zero_mulVec, smul_zero]
  have hn : Gmres.norm2 (0 : Vec (N * m) ℝ) = 0 := by simp [Gmres.norm2]
  have := h hL hcζ hcdt hδ M 0 c hμ hΛ hm hM hqk (fun t x U => by rw [haff, zero_mulVec, add_zero]) T (e := 0)
    (fun k => by rw [hz, hz, sub_zero, hn]; norm_num) k
  rw [hz, hn, add_zero, add_zero] at this
  linarith

/-! ## Concrete case -/

/-- Cost `u₀² + u₀ u₁ + u₁²` for two inputs in one stage. -/
noncomputable def coupled : Problem 1 2 ℝ where
  stateEq := fun _ _ _ => 0
  costateEq := fun _ _ _ => 0
  dphidx := fun _ _ => 0
  dhdu := fun _ _ u _ => ![2 * u 0 + u 1, u 0 + 2 * u 1]
  x0 := ![0]
  u0 := ![1, 1]

/-- One GMRES iteration for two unknowns, `ζ dt = 1/100`. -/
noncomputable def oneIter : Config ℝ := { rateCfg (1 / 100) 10 with kMax := 1 }

def coupledMat : Mat (1 * 2) (1 * 2) ℝ := !![2, 1; 1, 2]

theorem coupled_affine (t : ℝ) (x : Vec 1 ℝ) (U : Fin 1 → Vec 2 ℝ) :
    flatten (dhduList coupled eulerOde oneIter t x U) = coupledMat *ᵥ flatten U + 0 := by
  rw [add_zero]
  have h : dhduList coupled eulerOde oneIter t x U = fun i => ![2 * U i 0 + U i 1, U i 0 + 2 * U i 1] := by
    funext i
    rw [dhduList_eq]
    rfl
  rw [h]
  funext k
  have hk : k = (0 : Fin 2) ∨ k = (1 : Fin 2) := by
    change Fin 2 at k
    fin_cases k <;> simp
  have e : ∀ V : Fin 1 → Vec 2 ℝ, flatten V (0 : Fin 2) = V 0 0 ∧ flatten V (1 : Fin 2) = V 0 1 := fun V => ⟨rfl, rfl⟩
  have hm : ∀ (i : Fin 2) (v : Vec (1 * 2) ℝ), (coupledMat *ᵥ v) i = coupledMat i (0 : Fin 2) * v (0 : Fin 2) + coupledMat i (1 : Fin 2) * v (1 : Fin 2) := by
    intro i v
    exact Fin.sum_univ_two (fun j : Fin 2 => coupledMat i j * v j)
  rcases hk with rfl | rfl
  · rw [hm, (e _).1, (e _).1, (e _).2]
    simp [coupledMat]
  · rw [hm, (e _).2, (e _).1, (e _).2]
    simp [coupledMat]

/-- C112_decay with one iteration for two unknowns: `μ = 1`, `Λ = 3`, `q = √(8/9)`. -/
example : ∃ θ K : ℝ, 0 ≤ θ ∧ θ < 1 ∧ ∀ (T : Trajectory Gmres.realDense coupled eulerOde eulerOde oneIter 1) (k : ℕ),
    (T.line k).err ≤ K * θ ^ k * (T.line 0).err := by
  have hq : √(1 - 1 ^ 2 / 3 ^ 2 : ℝ) ≤ 95 / 100 := by
    rw [Real.sqrt_le_left (by norm_num)]
    norm_num
  obtain ⟨θ, K, h0, h1, _, h⟩ := C112_decay (ζ := 1 / 100) (dt := 1) (q := 95 / 100) (by norm_num) (by norm_num) (by norm_num) (by norm_num)
    (by norm_num)
  have hm : ∀ v : Vec 2 ℝ, coupledMat *ᵥ v = (![2 * v 0 + v 1, v 0 + 2 * v 1] : Vec 2 ℝ) := by
    intro v
    funext i
    have := Fin.sum_univ_two (fun j : Fin 2 => coupledMat i j * v j)
    change _ = _ at this
    refine this.trans ?_
    fin_cases i <;> simp [coupledMat]
  have h2 : ∀ v : Vec 2 ℝ, 1 * (v ⬝ᵥ v) ≤ v ⬝ᵥ (![2 * v 0 + v 1, v 0 + 2 * v 1] : Vec 2 ℝ) := by
    intro v
    simp only [dotProduct, Fin.sum_univ_two, cons_val_zero, cons_val_one]
    nlinarith [sq_nonneg (v 0 + v 1)]
  have h3 : ∀ v : Vec 2 ℝ, Gmres.norm2 (![2 * v 0 + v 1, v 0 + 2 * v 1] : Vec 2 ℝ) ≤ 3 * Gmres.norm2 v := by
    intro v
    refine abs_le_of_sq_le_sq' ?_ (by have := Gmres.norm2_nonneg v; positivity) |>.2
    rw [mul_pow, Gmres.norm2_sq, Gmres.norm2_sq]
    simp only [dotProduct, Fin.sum_univ_two, cons_val_zero, cons_val_one]
    nlinarith [sq_nonneg (v 0 - v 1)]
  refine ⟨θ, K, h0, h1, fun T k => ?_⟩
  refine h Gmres.realDense_exact rfl rfl (by simp [oneIter, rateCfg]) coupledMat 0 (μ := 1) (Λ := 3) (by norm_num) (by norm_num)
    (fun v => ?_) (fun v => ?_) (by simpa [oneIter] using hq) (fun t x U => coupled_affine t x U) T k
  · rw [hm]; exact h2 v
  · rw [hm]; exact h3 v

end Nmpc.Cgmres
