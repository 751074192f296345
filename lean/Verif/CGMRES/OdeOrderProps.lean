import Verif.CGMRES.OdeOrder
import Verif.CGMRES.OdeProps
import Verif.CGMRES.Sim
import Mathlib.Analysis.Calculus.Deriv.Prod

/-!
# Order of convergence of the ODE solvers (C117), in exact arithmetic

`f` is a state equation, `g (t, x, u) = (1, f t x u, 0)` the vector field for time, state and held input together.
-/

namespace Nmpc.Cgmres

open Set OdeOrder

variable {n m : ℕ}

/-- Time, state and input together. -/
abbrev Aug (n m : ℕ) := ℝ × Vec n ℝ × Vec m ℝ

/-- A state equation as a function of time, state and input together. -/
def joint (f : StateEq n m ℝ) : Aug n m → Vec n ℝ := fun p => f p.1 p.2.1 p.2.2

/-- `y` solves `y' = f(s, y, U_i)` on each interval `[t + i h, t + (i + 1) h]`, `i < N`: the continuous-time trajectory for inputs that are
held over each interval. -/
def Held (f : StateEq n m ℝ) (N : ℕ) (t h : ℝ) (U : ℕ → Vec m ℝ) (y : ℝ → Vec n ℝ) : Prop :=
  ∀ i < N, ∀ s ∈ Icc (t + i * h) (t + (i + 1) * h),
    HasDerivWithinAt y (f s (y s) (U i)) (Icc (t + i * h) (t + (i + 1) * h)) s

/-- The augmented vector field. -/
def aug (f : StateEq n m ℝ) : Aug n m → Aug n m := fun p => (1, f p.1 p.2.1 p.2.2, 0)

theorem aug_contDiff {f : StateEq n m ℝ} {k : WithTop ℕ∞} (hf : ContDiff ℝ k (joint f)) : ContDiff ℝ k (aug f) :=
  contDiff_const.prodMk (hf.prodMk contDiff_const)

theorem rkStep_aug (f : StateEq n m ℝ) (t : ℝ) (x : Vec n ℝ) (u : Vec m ℝ) (h : ℝ) :
    rkStep (aug f) (t, x, u) h = (t + h, rk4 f t x u h, u) := by
  rw [rk4_real]
  simp only [rkStep, aug, Prod.smul_mk, Prod.mk_add_mk, smul_zero, add_zero, smul_eq_mul, mul_one]
  congr 1
  ring

/-- The run of the augmented vector field over one interval. -/
def heldRun {f : StateEq n m ℝ} {N : ℕ} {t h : ℝ} {U : ℕ → Vec m ℝ} {y : ℝ → Vec n ℝ} (hh : 0 ≤ h) (hy : Held f N t h U y)
    {R T : ℝ} (ht : |t| ≤ R) (hU : ∀ i < N, ‖U i‖ ≤ R) (hN : N * h ≤ T) (hb : ∀ s ∈ Icc t (t + N * h), ‖y s‖ ≤ R) (i : ℕ) (hi : i < N) :
    Run (aug f) (R + T) where
  y s := (t + i * h + s, y (t + i * h + s), U i)
  h := h
  nonneg := hh
  sol := by
    intro s hs
    have hmap : MapsTo (fun s => t + i * h + s) (Icc 0 h) (Icc (t + i * h) (t + (i + 1) * h)) := by
      intro s hs
      constructor <;> nlinarith [hs.1, hs.2]
    have h1 : HasDerivWithinAt (fun s => t + i * h + s) 1 (Icc 0 h) s := by
      simpa using (hasDerivWithinAt_id s (Icc 0 h)).const_add (t + i * h)
    have h2 := (hy i hi _ (hmap hs)).scomp s h1 hmap
    rw [one_smul] at h2
    exact h1.prodMk (h2.prodMk (hasDerivWithinAt_const _ _ _))
  bd := by
    intro s hs
    have hiN : (i : ℝ) * h + h ≤ N * h := by
      have : ((i : ℝ) + 1) ≤ N := by exact_mod_cast hi
      nlinarith
    have hi0 : 0 ≤ (i : ℝ) * h := by positivity
    have hTR : 0 ≤ T := by nlinarith
    have hin : t + i * h + s ∈ Icc t (t + N * h) := ⟨by linarith [hs.1], by linarith [hs.2]⟩
    rw [Prod.norm_mk, Prod.norm_mk]
    refine max_le ?_ (max_le ?_ ?_)
    · rw [Real.norm_eq_abs]
      calc |t + i * h + s| ≤ |t| + |i * h + s| := by rw [add_assoc]; exact abs_add_le _ _
        _ ≤ R + T := add_le_add ht (by rw [abs_of_nonneg (by linarith [hs.1])]; linarith [hs.2])
    · linarith [hb _ hin]
    · linarith [hU i hi]

/-- **C117**, Runge-Kutta: if the state equation is four times continuously differentiable then the iterated steps approximate the trajectory of
the differential equation with held inputs to fourth order in the step, uniformly in the start time, the initial state, the inputs and
the number of steps, as long as these and the trajectory stay in a given ball and the duration is bounded. -/
theorem C117_rk4_order (f : StateEq n m ℝ) (hf : ContDiff ℝ 4 (joint f)) (R T : ℝ) (hT : 0 ≤ T) :
    ∃ C δ, 0 ≤ C ∧ 0 < δ ∧ ∀ (N : ℕ) (t h : ℝ) (U : ℕ → Vec m ℝ) (x : ℕ → Vec n ℝ) (y : ℝ → Vec n ℝ),
      0 ≤ h → h ≤ δ → N * h ≤ T → |t| ≤ R → (∀ i < N, ‖U i‖ ≤ R) → (∀ s ∈ Icc t (t + N * h), ‖y s‖ ≤ R) →
      Held f N t h U y → x 0 = y t → (∀ i < N, x (i + 1) = rk4 f (t + i * h) (x i) (U i) h) →
      ∀ i ≤ N, ‖x i - y (t + i * h)‖ ≤ C * h ^ 4 := by
  obtain ⟨C, δ1, hC, hδ1, hloc⟩ := rk_local (aug_contDiff hf) (R + T)
  obtain ⟨K, δ2, hK, hδ2, hst⟩ := rk_stable (aug_contDiff (hf.of_le (by norm_num) : ContDiff ℝ 1 (joint f))) (R + T + 1)
  set A := (2 * C * T) * Real.exp (K * T) with hA
  have hA0 : 0 ≤ A := by positivity
  refine ⟨A, min (min (δ1 / 2) δ2) (min 1 (1 / (A + 1))), hA0, by positivity, ?_⟩
  intro N t h U x y hh hδ hN ht hU hb hy hx0 hx
  have hd1 : h < δ1 := by
    have := hδ.trans ((min_le_left _ _).trans (min_le_left _ _))
    linarith
  have hd2 : h ≤ δ2 := hδ.trans ((min_le_left _ _).trans (min_le_right _ _))
  have hd3 : h ≤ 1 := hδ.trans ((min_le_right _ _).trans (min_le_left _ _))
  have hd4 : h ≤ 1 / (A + 1) := hδ.trans ((min_le_right _ _).trans (min_le_right _ _))
  have h4 : h ^ 4 ≤ h := by
    calc h ^ 4 ≤ h ^ 1 := pow_le_pow_of_le_one hh hd3 (by norm_num)
      _ = h := pow_one h
  have hAh : A * h ^ 4 ≤ 1 := by
    rw [le_div_iff₀ (by linarith)] at hd4
    nlinarith [pow_nonneg hh 4]
  have e : (0 + 2 * (C * h ^ 4) * T) * Real.exp (K * T) = A * h ^ 4 := by rw [hA]; ring
  have := gronwall (N := N) (Φ := fun i z => rk4 f (t + i * h) z (U i) h) (x := x) (y := fun i => y (t + i * h)) (h := h)
    (b := 0) (c := C * h ^ 4) (Λ := K) (T := T) hh le_rfl (by positivity) hK hN (by simp [hx0]) hx ?_ ?_ (by rw [e]; exact hAh)
  · rwa [e] at this
  · intro i hi
    have h1 := hloc (heldRun hh hy ht hU hN hb i hi) hd1
    have h2 : rkStep (aug f) ((heldRun hh hy ht hU hN hb i hi).y 0) h =
        (t + i * h + h, rk4 f (t + i * h) (y (t + i * h)) (U i) h, U i) := by
      simp only [heldRun, add_zero]
      exact rkStep_aug f (t + i * h) (y (t + i * h)) (U i) h
    have h3 : (heldRun hh hy ht hU hN hb i hi).h = h := rfl
    rw [h3, h2] at h1
    have h4 := (norm_fst_le _).trans ((norm_snd_le _).trans h1)
    have e1 : t + ((i + 1 : ℕ) : ℝ) * h = t + i * h + h := by push_cast; ring
    rw [e1]
    refine h4.trans (le_of_eq ?_)
    ring
  · intro i hi z hz
    have hin : t + i * h ∈ Icc t (t + N * h) := by
      have : (i : ℝ) ≤ N := by exact_mod_cast hi.le
      constructor <;> nlinarith
    have hr := (heldRun hh hy ht hU hN hb i hi).bd 0 (left_mem_Icc.2 hh)
    simp only [heldRun, add_zero] at hr
    have hbx : ‖y (t + i * h)‖ ≤ R + T := (norm_fst_le _).trans ((norm_snd_le _).trans hr)
    have hbt : ‖t + i * h‖ ≤ R + T := (norm_fst_le _).trans hr
    have hbu : ‖U i‖ ≤ R + T := (norm_snd_le _).trans ((norm_snd_le _).trans hr)
    have hz' : ‖z‖ ≤ R + T + 1 := by
      calc ‖z‖ = ‖y (t + i * h) + (z - y (t + i * h))‖ := by congr 1; abel
        _ ≤ _ := norm_add_le _ _
        _ ≤ _ := add_le_add hbx hz
    have h1 := hst h hh hd2 (t + i * h, y (t + i * h), U i) (t + i * h, z, U i) (hr.trans (by linarith))
      (by rw [Prod.norm_mk, Prod.norm_mk]; exact max_le (by linarith) (max_le hz' (by linarith)))
    rw [rkStep_aug, rkStep_aug] at h1
    have h2 := (norm_fst_le _).trans ((norm_snd_le _).trans h1)
    have e2 : ((t + i * h, z, U i) : Aug n m) - (t + i * h, y (t + i * h), U i) = (0, z - y (t + i * h), 0) := by simp
    rw [e2, Prod.norm_mk, Prod.norm_mk] at h2
    simp only [norm_zero, norm_nonneg, sup_of_le_left, sup_of_le_right] at h2
    have : 0 ≤ C * h ^ 4 * h := by positivity
    exact h2.trans (by linarith)

/-- A solver whose step agrees with `x + h f(t, x, u)` up to second order in `h` (of either sign), uniformly on bounded sets, for every
continuously differentiable right-hand side. -/
def Ode.FirstOrder (ode : Ode ℝ) : Prop :=
  ∀ {n m : ℕ} (f : StateEq n m ℝ), ContDiff ℝ 1 (joint f) → ∀ R, ∃ C δ, 0 ≤ C ∧ 0 < δ ∧
    ∀ (t : ℝ) (x : Vec n ℝ) (u : Vec m ℝ) (h : ℝ), |t| ≤ R → ‖x‖ ≤ R → ‖u‖ ≤ R → |h| ≤ δ →
      ‖ode.solve f t x u h - (x + h • f t x u)‖ ≤ C * h ^ 2

theorem euler_firstOrder : (eulerOde : Ode ℝ).FirstOrder := by
  intro n m f _ R
  refine ⟨0, 1, le_rfl, one_pos, fun t x u h _ _ _ _ => ?_⟩
  show ‖euler f t x u h - _‖ ≤ _
  rw [euler_real]; simp

theorem rk_firstOrder : (rkOde : Ode ℝ).FirstOrder := by
  intro n m f hf R
  obtain ⟨C, δ, hC, hδ, h⟩ := rk_first (aug_contDiff hf) R
  refine ⟨C, δ, hC, hδ, fun t x u s ht hx hu hs => ?_⟩
  have h1 := h s hs (t, x, u) (by rw [Prod.norm_mk, Prod.norm_mk]; exact max_le ht (max_le hx hu))
  rw [rkStep_aug] at h1
  exact (norm_fst_le _).trans ((norm_snd_le _).trans h1)

/-- **C117**, both solvers: first order for continuously differentiable state equations. -/
theorem C117_first_order (ode : Ode ℝ) (ho : ode.FirstOrder) (f : StateEq n m ℝ) (hf : ContDiff ℝ 1 (joint f)) (R T : ℝ) (hT : 0 ≤ T) :
    ∃ C δ, 0 ≤ C ∧ 0 < δ ∧ ∀ (N : ℕ) (t h : ℝ) (U : ℕ → Vec m ℝ) (x : ℕ → Vec n ℝ) (y : ℝ → Vec n ℝ),
      0 ≤ h → h ≤ δ → N * h ≤ T → |t| ≤ R → (∀ i < N, ‖U i‖ ≤ R) → (∀ s ∈ Icc t (t + N * h), ‖y s‖ ≤ R) →
      Held f N t h U y → x 0 = y t → (∀ i < N, x (i + 1) = ode.solve f (t + i * h) (x i) (U i) h) →
      ∀ i ≤ N, ‖x i - y (t + i * h)‖ ≤ C * h := by
  obtain ⟨C0, hC0, hloc⟩ := euler_local (aug_contDiff hf) (R + T)
  obtain ⟨C1, δ1, hC1, hδ1, hfo⟩ := ho f hf (R + T + 1)
  obtain ⟨K, hK, hlip⟩ := lip_ball hf (R + T + 1)
  set C := C0 + 2 * C1 with hC
  have hCn : 0 ≤ C := by positivity
  set A := (2 * C * T) * Real.exp (K * T) with hA
  have hA0 : 0 ≤ A := by positivity
  refine ⟨A, min δ1 (1 / (A + 1)), hA0, by positivity, ?_⟩
  intro N t h U x y hh hδ hN ht hU hb hy hx0 hx
  have hd1 : |h| ≤ δ1 := by rw [abs_of_nonneg hh]; exact hδ.trans (min_le_left _ _)
  have hd4 : h ≤ 1 / (A + 1) := hδ.trans (min_le_right _ _)
  have hAh : A * h ≤ 1 := by
    rw [le_div_iff₀ (by linarith)] at hd4
    nlinarith
  have e : (0 + 2 * (C * h) * T) * Real.exp (K * T) = A * h := by rw [hA]; ring
  have bds : ∀ i < N, |t + i * h| ≤ R + T ∧ ‖y (t + i * h)‖ ≤ R + T ∧ ‖U i‖ ≤ R + T := by
    intro i hi
    have hr := (heldRun hh hy ht hU hN hb i hi).bd 0 (left_mem_Icc.2 hh)
    simp only [heldRun, add_zero] at hr
    exact ⟨(norm_fst_le _).trans hr, (norm_fst_le _).trans ((norm_snd_le _).trans hr), (norm_snd_le _).trans ((norm_snd_le _).trans hr)⟩
  have := gronwall (N := N) (Φ := fun i z => ode.solve f (t + i * h) z (U i) h) (x := x) (y := fun i => y (t + i * h)) (h := h)
    (b := 0) (c := C * h) (Λ := K) (T := T) hh le_rfl (by positivity) hK hN (by simp [hx0]) hx ?_ ?_ (by rw [e]; exact hAh)
  · rwa [e] at this
  · intro i hi
    obtain ⟨b1, b2, b3⟩ := bds i hi
    have h1 := hloc (heldRun hh hy ht hU hN hb i hi)
    have h3 : (heldRun hh hy ht hU hN hb i hi).h = h := rfl
    have h2 : (heldRun hh hy ht hU hN hb i hi).y 0 + h • aug f ((heldRun hh hy ht hU hN hb i hi).y 0) -
        (heldRun hh hy ht hU hN hb i hi).y h =
        (0, y (t + i * h) + h • f (t + i * h) (y (t + i * h)) (U i) - y (t + i * h + h), 0) := by
      simp [heldRun, aug]
    rw [h3, h2] at h1
    have h4 := (norm_fst_le _).trans ((norm_snd_le _).trans h1)
    have h5 := hfo (t + i * h) (y (t + i * h)) (U i) h (by linarith) (by linarith) (by linarith) hd1
    have e1 : t + ((i + 1 : ℕ) : ℝ) * h = t + i * h + h := by push_cast; ring
    rw [e1]
    refine (norm_sub_le_norm_sub_add_norm_sub _ (y (t + i * h) + h • f (t + i * h) (y (t + i * h)) (U i)) _).trans
      ((add_le_add h5 h4).trans ?_)
    rw [hC]
    nlinarith [mul_nonneg hC1 (sq_nonneg h)]
  · intro i hi z hz
    obtain ⟨b1, b2, b3⟩ := bds i hi
    have hz' : ‖z‖ ≤ R + T + 1 := by
      calc ‖z‖ = ‖y (t + i * h) + (z - y (t + i * h))‖ := by congr 1; abel
        _ ≤ _ := norm_add_le _ _
        _ ≤ _ := add_le_add b2 hz
    have h5 := hfo (t + i * h) (y (t + i * h)) (U i) h (by linarith) (by linarith) (by linarith) hd1
    have h6 := hfo (t + i * h) z (U i) h (by linarith) hz' (by linarith) hd1
    have h7 := hlip (t + i * h, y (t + i * h), U i) (t + i * h, z, U i)
      (by rw [Prod.norm_mk, Prod.norm_mk]; exact max_le (by rw [Real.norm_eq_abs]; linarith) (max_le (by linarith) (by linarith)))
      (by rw [Prod.norm_mk, Prod.norm_mk]; exact max_le (by rw [Real.norm_eq_abs]; linarith) (max_le hz' (by linarith)))
    have e2 : ((t + i * h, z, U i) : Aug n m) - (t + i * h, y (t + i * h), U i) = (0, z - y (t + i * h), 0) := by simp
    rw [e2, Prod.norm_mk, Prod.norm_mk] at h7
    simp only [norm_zero, norm_nonneg, sup_of_le_left, sup_of_le_right, joint] at h7
    set y' := y (t + i * h)
    set F := f (t + i * h)
    calc ‖ode.solve f (t + i * h) z (U i) h - ode.solve f (t + i * h) y' (U i) h‖
        = ‖(ode.solve f (t + i * h) z (U i) h - (z + h • F z (U i))) + ((z - y') + h • (F z (U i) - F y' (U i)))
          - (ode.solve f (t + i * h) y' (U i) h - (y' + h • F y' (U i)))‖ := by congr 1; module
      _ ≤ (C1 * h ^ 2 + (‖z - y'‖ + h * (K * ‖z - y'‖))) + C1 * h ^ 2 := by
        refine (norm_sub_le _ _).trans (add_le_add ((norm_add_le _ _).trans (add_le_add h6 ((norm_add_le _ _).trans ?_))) h5)
        rw [norm_smul, Real.norm_of_nonneg hh]
        gcongr
      _ ≤ _ := by rw [hC]; nlinarith [mul_nonneg hC0 (sq_nonneg h)]

/-- **C117**, simulation: with the Runge-Kutta solver as simulator the states recorded by `run` (a `Trajectory`, see `C54_run`) follow the
continuous-time plant under the held control inputs to fourth order in `dt`. -/
theorem C117_run (P : Problem n m ℝ) (hf : ContDiff ℝ 4 (joint P.stateEq)) (R T : ℝ) (hT : 0 ≤ T) :
    ∃ C δ, 0 ≤ C ∧ 0 < δ ∧ ∀ (L : Gmres.Dense ℝ) (ode : Ode ℝ) (cfg : Config ℝ) (N : ℕ) (S : Trajectory L P ode rkOde cfg N) (M : ℕ)
      (y : ℝ → Vec n ℝ), 0 ≤ cfg.dt → cfg.dt ≤ δ → M * cfg.dt ≤ T → (∀ k < M, ‖S.u k‖ ≤ R) →
      (∀ s ∈ Icc 0 (M * cfg.dt), ‖y s‖ ≤ R) → Held P.stateEq M 0 cfg.dt S.u y → y 0 = P.x0 →
      ∀ k ≤ M, ‖S.x k - y (k * cfg.dt)‖ ≤ C * cfg.dt ^ 4 := by
  obtain ⟨C, δ, hC, hδ, h⟩ := C117_rk4_order P.stateEq hf (max R 0) T hT
  refine ⟨C, δ, hC, hδ, fun L ode cfg N S M y hd hdδ hM hu hb hy h0 k hk => ?_⟩
  have := h M 0 cfg.dt S.u S.x y hd hdδ hM (by simp) (fun k hk => (hu k hk).trans (le_max_left _ _))
    (fun s hs => (hb s (by simpa using hs)).trans (le_max_left _ _)) hy (by rw [S.x0, h0])
    (fun i _ => by rw [zero_add]; exact S.plant i) k hk
  simpa using this

theorem horizon_bounds (cfg : Config ℝ) (hT : 0 ≤ cfg.steadyHorizon) (ha : 0 ≤ cfg.increaseRatio) {t : ℝ} (ht : 0 ≤ t) :
    0 ≤ horizonDuration cfg t ∧ horizonDuration cfg t ≤ cfg.steadyHorizon := by
  unfold horizonDuration
  have h1 : Real.exp (-cfg.increaseRatio * t) ≤ 1 := Real.exp_le_one_iff.2 (by nlinarith)
  have h2 := Real.exp_pos (-cfg.increaseRatio * t)
  have e : FOps.exp (-cfg.increaseRatio * t) = Real.exp (-cfg.increaseRatio * t) := rfl
  rw [e]
  constructor <;> nlinarith

theorem horizonStep_bounds (cfg : Config ℝ) (hT : 0 ≤ cfg.steadyHorizon) (ha : 0 ≤ cfg.increaseRatio) {t : ℝ} (ht : 0 ≤ t) {N : ℕ} (hN : 0 < N) :
    0 ≤ horizonStep cfg N t ∧ horizonStep cfg N t ≤ cfg.steadyHorizon / N ∧ N * horizonStep cfg N t ≤ cfg.steadyHorizon := by
  obtain ⟨h1, h2⟩ := horizon_bounds cfg hT ha ht
  have hN' : (0 : ℝ) < N := by exact_mod_cast hN
  have e : horizonStep cfg N t = horizonDuration cfg t / N := by simp [horizonStep]
  rw [e]
  refine ⟨by positivity, by gcongr, ?_⟩
  rw [mul_div_cancel₀ _ hN'.ne']
  exact h2

/-- **C117**, prediction: over the horizon of length `T(t)`, divided into `N` stages, the states predicted with the Runge-Kutta solver
differ from the trajectory of the state equation under the stage inputs by at most `C / N^4`. -/
theorem C117_sweep (P : Problem n m ℝ) (cfg : Config ℝ) (hT : 0 ≤ cfg.steadyHorizon) (ha : 0 ≤ cfg.increaseRatio)
    (hf : ContDiff ℝ 4 (joint P.stateEq)) (R : ℝ) :
    ∃ C N₀, ∀ (N : ℕ) (t : ℝ) (U : Fin N → Vec m ℝ) (y : ℝ → Vec n ℝ), N₀ ≤ N → 0 ≤ t → t ≤ R → (∀ i, ‖U i‖ ≤ R) →
      let h := horizonDuration cfg t / N
      (∀ s ∈ Icc t (t + horizonDuration cfg t), ‖y s‖ ≤ R) → Held P.stateEq N t h (colAt U) y →
      ∀ i ≤ N, ‖(forwardAt P rkOde (horizonStep cfg N t) t (y t) U i).2 - y (t + i * h)‖ ≤ C / N ^ 4 := by
  obtain ⟨C, δ, hC, hδ, key⟩ := C117_rk4_order P.stateEq hf R cfg.steadyHorizon hT
  obtain ⟨N0, hN0⟩ := exists_nat_gt (cfg.steadyHorizon / δ)
  refine ⟨C * cfg.steadyHorizon ^ 4, N0 + 1, ?_⟩
  intro N t U y hN ht htR hU h hb hy i hi
  have hNp : 0 < N := by omega
  have hN' : (0 : ℝ) < N := by exact_mod_cast hNp
  have e : horizonStep cfg N t = h := by simp [horizonStep, h]
  obtain ⟨b1, b2, b3⟩ := horizonStep_bounds cfg hT ha ht hNp
  rw [e] at b1 b2 b3
  have eN : (N : ℝ) * h = horizonDuration cfg t := mul_div_cancel₀ _ hN'.ne'
  have hc : ∀ i < N, ‖colAt U i‖ ≤ R := by
    intro i hi
    simp only [colAt, hi, dite_true]
    exact hU _
  have hsd : h ≤ δ := by
    refine b2.trans ?_
    rw [div_le_iff₀ hN']
    rw [div_lt_iff₀ hδ] at hN0
    have : (N0 : ℝ) ≤ N := by exact_mod_cast (by omega : N0 ≤ N)
    nlinarith
  rw [e]
  have := key N t h (colAt U) (states P rkOde h t (y t) U) y b1 hsd b3 (by rwa [abs_of_nonneg ht]) hc
    (by rw [eN]; exact hb) hy rfl (fun i _ => states_succ P rkOde h t (y t) U i) i hi
  refine this.trans ?_
  have h4 : h ^ 4 ≤ (cfg.steadyHorizon / N) ^ 4 := pow_le_pow_left₀ b1 b2 4
  calc C * h ^ 4 ≤ C * (cfg.steadyHorizon / N) ^ 4 := mul_le_mul_of_nonneg_left h4 hC
    _ = _ := by rw [div_pow]; ring

end Nmpc.Cgmres
