import Verif.Problems.BipedalOrder
import Verif.Problems.RefsProps
import Mathlib.Analysis.Calculus.MeanValue

/-!
# C138: bipedal walking with a frequency that varies within the steps
-/

namespace Nmpc.Problems

open Set Cgmres OdeOrder Matrix

/-- Local error of one step along a motion of the pendulum. -/
theorem lip_local {W R Λ a b u : ℝ} {ω : ℝ → ℝ} {y : ℝ → Vec 2 ℝ} (hab : a ≤ b) (hW : 0 ≤ W) (hR : 0 ≤ R) (hΛ0 : 0 ≤ Λ) (hω : ∀ s ∈ Icc a b, |ω s| ≤ W)
    (hΛ : ∀ s ∈ Icc a b, |ω s - ω a| ≤ Λ * (b - a)) (hy : ∀ s ∈ Icc a b, ‖y s‖ ≤ R) (hu : |u| ≤ R)
    (hd : ∀ s ∈ Icc a b, HasDerivWithinAt y ![y s 1, ω s * (y s 0 - u)] (Icc a b) s) :
    ‖y b - (y a + (b - a) • ![y a 1, ω a * (y a 0 - u)])‖ ≤ (2 * W + 2 * Λ) * R * (b - a) ^ 2 := by
  have hba : 0 ≤ b - a := by linarith
  have hla : a ∈ Icc a b := left_mem_Icc.2 hab
  have hc : ∀ s ∈ Icc a b, ∀ j, |y s j| ≤ R := fun s hs j => (norm_le_pi_norm (y s) j).trans (hy s hs)
  have hx : ∀ s ∈ Icc a b, |y s 0 - u| ≤ 2 * R := fun s hs => (abs_sub _ _).trans (by linarith [hc s hs 0])
  have h0 : ∀ s ∈ Icc a b, |y s 0 - y a 0| ≤ R * (b - a) := by
    intro s hs
    have := (convex_Icc a b).norm_image_sub_le_of_norm_hasDerivWithin_le (f := fun s => y s 0) (f' := fun s => y s 1) (C := R)
      (fun s hs => by simpa using hasDerivWithinAt_pi.1 (hd s hs) 0) (fun s hs => hc s hs 1) hla hs
    refine this.trans (mul_le_mul_of_nonneg_left ?_ hR)
    rw [Real.norm_eq_abs, abs_of_nonneg (by linarith [hs.1])]
    linarith [hs.2]
  have h1 : ∀ s ∈ Icc a b, |y s 1 - y a 1| ≤ 2 * W * R * (b - a) := by
    intro s hs
    have := (convex_Icc a b).norm_image_sub_le_of_norm_hasDerivWithin_le (f := fun s => y s 1) (f' := fun s => ω s * (y s 0 - u)) (C := 2 * W * R)
      (fun s hs => by simpa using hasDerivWithinAt_pi.1 (hd s hs) 1)
      (fun s hs => by
        rw [Real.norm_eq_abs, abs_mul]
        calc _ ≤ W * (2 * R) := mul_le_mul (hω s hs) (hx s hs) (abs_nonneg _) hW
          _ = _ := by ring) hla hs
    refine this.trans (mul_le_mul_of_nonneg_left ?_ (by positivity))
    rw [Real.norm_eq_abs, abs_of_nonneg (by linarith [hs.1])]
    linarith [hs.2]
  set D : Vec 2 ℝ := ![y a 1, ω a * (y a 0 - u)] with hD
  have hn : 0 ≤ (2 * W + 2 * Λ) * R * (b - a) := by positivity
  have key := (convex_Icc a b).norm_image_sub_le_of_norm_hasDerivWithin_le (f := fun s => y s - (s - a) • D)
    (f' := fun s => ![y s 1, ω s * (y s 0 - u)] - D) (C := (2 * W + 2 * Λ) * R * (b - a))
    (fun s hs => by
      have := (((hasDerivWithinAt_id s (Icc a b)).sub_const a).smul_const D)
      rw [one_smul] at this
      exact (hd s hs).fun_sub this)
    (fun s hs => by
      refine (pi_norm_le_iff_of_nonneg hn).2 fun j => ?_
      have q1 : 0 ≤ Λ * R * (b - a) := by positivity
      have q2 : 0 ≤ W * R * (b - a) := by positivity
      fin_cases j
      · simp only [hD, Fin.zero_eta, Pi.sub_apply, cons_val_zero, Real.norm_eq_abs]
        exact (h1 s hs).trans (by nlinarith)
      · simp only [hD, Fin.mk_one, Pi.sub_apply, cons_val_one, cons_val_fin_one, Real.norm_eq_abs]
        have e : ω s * (y s 0 - u) - ω a * (y a 0 - u) = (ω s - ω a) * (y s 0 - u) + ω a * (y s 0 - y a 0) := by ring
        rw [e]
        refine (abs_add_le _ _).trans ?_
        rw [abs_mul, abs_mul]
        have r1 := mul_le_mul (hΛ s hs) (hx s hs) (abs_nonneg _) (by positivity)
        have r2 := mul_le_mul (hω a hla) (h0 s hs) (abs_nonneg _) hW
        nlinarith) hla (right_mem_Icc.2 hab)
  simp only [sub_self, zero_smul, sub_zero, Real.norm_eq_abs, abs_of_nonneg hba] at key
  calc _ = ‖y b - (b - a) • D - y a‖ := by congr 1; abel
    _ ≤ _ := key
    _ = _ := by ring

/-- **C138** Bipedal walking, frequency varying in time: states and inputs that follow the state equation (plans, `C11_trajectory`, and receding-horizon runs, `C67_bipedal`) follow the motion of the
linear inverted pendulum `y'' = ω²(t) (y - u)`, whose squared frequency is bounded by `W` and changes by at most `Λ·dt` within each step, with an explicit constant. -/
theorem C138_bipedal_varying (p : Bipedal ℝ) {W R Λ T dt t0 : ℝ} {N : ℕ} {X : ℕ → Vec 2 ℝ} {U : ℕ → Vec 1 ℝ} {y : ℝ → Vec 2 ℝ} (hΛ0 : 0 ≤ Λ)
    (hω : ∀ t, |p.omega2 t| ≤ W) (hΛ : ∀ i < N, ∀ s ∈ Icc (t0 + i * dt) (t0 + (i + 1) * dt), |p.omega2 s - p.omega2 (t0 + i * dt)| ≤ Λ * dt)
    (hdt : 0 < dt) (h1 : dt ≤ 1) (hN : N * dt ≤ T) (hU : ∀ i < N, |U i 0| ≤ R)
    (hst : ∀ i < N, X (i + 1) = (p.ddp dt).stateEq (t0 + i * dt) (X i) (U i)) (hy0 : y t0 = X 0)
    (hb : ∀ s ∈ Icc t0 (t0 + N * dt), ‖y s‖ ≤ R)
    (hy : ∀ i < N, ∀ s ∈ Icc (t0 + i * dt) (t0 + (i + 1) * dt),
      HasDerivWithinAt y ![y s 1, p.omega2 s * (y s 0 - U i 0)] (Icc (t0 + i * dt) (t0 + (i + 1) * dt)) s) :
    ∀ i ≤ N, ‖X i - y (t0 + i * dt)‖ ≤ (4 * W + 2 * Λ) * R * T * Real.exp ((1 + 2 * W) * T) * dt := by
  have hW : 0 ≤ W := (abs_nonneg _).trans (hω 0)
  have hR : 0 ≤ R := (norm_nonneg _).trans (hb t0 ⟨le_rfl, by nlinarith [show (0 : ℝ) ≤ N * dt by positivity]⟩)
  have hT : 0 ≤ T := le_trans (by positivity) hN
  set c := (4 * W + 2 * Λ) * R with hc
  have hc0 : 0 ≤ c := by positivity
  have key : ∀ i ≤ N, ‖X i - y (t0 + i * dt)‖ ≤ (1 + dt * (1 + 2 * W)) ^ i * (i * (c * dt ^ 2)) := by
    intro i
    induction i with
    | zero => intro _; simp [hy0]
    | succ i ih =>
      intro hi
      have hi' : i < N := hi
      have ih := ih hi'.le
      set a := t0 + (i : ℝ) * dt with ha
      have eb : t0 + ((i : ℝ) + 1) * dt = a + dt := by rw [ha]; ring
      have hsub : Icc a (a + dt) ⊆ Icc t0 (t0 + N * dt) := by
        refine Icc_subset_Icc (by rw [ha]; nlinarith [show (0 : ℝ) ≤ i * dt by positivity]) ?_
        have : (i : ℝ) + 1 ≤ N := by exact_mod_cast hi'
        rw [ha]
        nlinarith
      have hloc := lip_local (W := W) (R := R) (Λ := Λ) (a := a) (b := a + dt) (u := U i 0) (ω := p.omega2) (y := y) (by linarith) hW hR hΛ0 (fun s _ => hω s)
        (fun s hs => by rw [add_sub_cancel_left]; exact hΛ i hi' s (by rwa [eb])) (fun s hs => hb s (hsub hs)) (hU i hi')
        (fun s hs => by have := hy i hi' s (by rwa [eb]); rwa [eb] at this)
      rw [add_sub_cancel_left] at hloc
      have hya : ‖y a‖ ≤ R := hb a (hsub ⟨le_rfl, by linarith⟩)
      set E := ‖X i - y a‖ with hE
      have hE0 : 0 ≤ E := norm_nonneg _
      have d0 : |X i 0 - y a 0| ≤ E := norm_le_pi_norm (X i - y a) 0
      have d1 : |X i 1 - y a 1| ≤ E := norm_le_pi_norm (X i - y a) 1
      have hstep : ‖X (i + 1) - y (a + dt)‖ ≤ (1 + dt * (1 + 2 * W)) * E + c * dt ^ 2 := by
        have e : X (i + 1) - y (a + dt) = (X i - y a) + dt • ![X i 1 - y a 1, p.omega2 a * (X i 0 - y a 0)] +
            ![dt ^ 2 / 2 * (p.omega2 a * (X i 0 - U i 0)), 0] - (y (a + dt) - (y a + dt • ![y a 1, p.omega2 a * (y a 0 - U i 0)])) := by
          rw [hst i hi', Bipedal.stateEq_flow, ← ha]
          funext j
          fin_cases j <;> simp [lipFlow, vecHead, vecTail] <;> ring
        have n1 : ‖dt • (![X i 1 - y a 1, p.omega2 a * (X i 0 - y a 0)] : Vec 2 ℝ)‖ ≤ dt * ((1 + W) * E) := by
          rw [norm_smul, Real.norm_eq_abs, abs_of_pos hdt]
          refine mul_le_mul_of_nonneg_left ((pi_norm_le_iff_of_nonneg (by positivity)).2 fun j => ?_) hdt.le
          have hWE : 0 ≤ W * E := by positivity
          fin_cases j
          · exact d1.trans (by nlinarith)
          · simp only [Fin.mk_one, cons_val_one, cons_val_fin_one, Real.norm_eq_abs]
            rw [abs_mul]
            exact (mul_le_mul (hω a) d0 (abs_nonneg _) hW).trans (by nlinarith)
        have n2 : ‖(![dt ^ 2 / 2 * (p.omega2 a * (X i 0 - U i 0)), 0] : Vec 2 ℝ)‖ ≤ dt ^ 2 / 2 * (W * (E + 2 * R)) := by
          refine (pi_norm_le_iff_of_nonneg (by positivity)).2 fun j => ?_
          fin_cases j
          · simp only [Fin.zero_eta, cons_val_zero, Real.norm_eq_abs]
            rw [abs_mul, abs_of_nonneg (by positivity), abs_mul]
            refine mul_le_mul_of_nonneg_left (mul_le_mul (hω a) ?_ (abs_nonneg _) hW) (by positivity)
            have q : X i 0 - U i 0 = (X i 0 - y a 0) + (y a 0 - U i 0) := by ring
            rw [q]
            refine (abs_add_le _ _).trans (add_le_add d0 ((abs_sub _ _).trans ?_))
            linarith [(norm_le_pi_norm (y a) 0).trans hya, hU i hi', Real.norm_eq_abs (y a 0)]
          · simp only [Fin.mk_one, cons_val_one, cons_val_fin_one, norm_zero]
            positivity
        rw [e]
        refine (norm_sub_le _ _).trans ((add_le_add ((norm_add_le _ _).trans (add_le_add (norm_add_le _ _) n2)) hloc).trans ?_)
        have r1 : dt ^ 2 / 2 * (W * E) ≤ dt * (W * E) := mul_le_mul_of_nonneg_right (by nlinarith) (by positivity)
        have r2 : 0 ≤ dt ^ 2 * (W * R) := by positivity
        have rE : 0 ≤ dt * E := by positivity
        rw [hc, ← hE]
        nlinarith
      rw [Nat.cast_succ, eb]
      have hk1 : 1 ≤ 1 + dt * (1 + 2 * W) := by nlinarith [show 0 ≤ dt * (1 + 2 * W) by positivity]
      have hpow : (1 : ℝ) ≤ (1 + dt * (1 + 2 * W)) ^ (i + 1) := one_le_pow₀ hk1
      have hcd : 0 ≤ c * dt ^ 2 := by positivity
      calc _ ≤ _ := hstep
        _ ≤ (1 + dt * (1 + 2 * W)) * ((1 + dt * (1 + 2 * W)) ^ i * (i * (c * dt ^ 2))) + (1 + dt * (1 + 2 * W)) ^ (i + 1) * (c * dt ^ 2) :=
            add_le_add (mul_le_mul_of_nonneg_left ih (by linarith)) (le_mul_of_one_le_left hcd hpow)
        _ = _ := by rw [pow_succ]; ring
  intro i hi
  refine (key i hi).trans ?_
  have hiT : (i : ℝ) * dt ≤ T := le_trans (by gcongr) hN
  have e : (1 + dt * (1 + 2 * W)) ^ i ≤ Real.exp ((1 + 2 * W) * T) := by
    calc _ ≤ Real.exp (dt * (1 + 2 * W)) ^ i := by
          gcongr
          linarith [Real.add_one_le_exp (dt * (1 + 2 * W))]
      _ = Real.exp (i * (dt * (1 + 2 * W))) := (Real.exp_nat_mul _ _).symm
      _ ≤ _ := by
          refine Real.exp_le_exp.2 ?_
          nlinarith
  calc _ ≤ Real.exp ((1 + 2 * W) * T) * (i * (c * dt ^ 2)) := mul_le_mul_of_nonneg_right e (by positivity)
    _ = Real.exp ((1 + 2 * W) * T) * (c * dt) * (i * dt) := by ring
    _ ≤ Real.exp ((1 + 2 * W) * T) * (c * dt) * T := mul_le_mul_of_nonneg_left hiT (by positivity)
    _ = _ := by ring

/-! ### The frequency of the test -/

theorem minJerkSecondDeriv_real (t : ℝ) : (minJerkSecondDeriv t : ℝ) = 120 * t ^ 3 - 180 * t ^ 2 + 60 * t := by
  simp only [minJerkSecondDeriv, lit_real]; push_cast; ring

theorem minJerkSecondDeriv_lip {x y : ℝ} (hx : 0 ≤ x ∧ x ≤ 1) (hy : 0 ≤ y ∧ y ≤ 1) :
    |(minJerkSecondDeriv x : ℝ) - minJerkSecondDeriv y| ≤ 60 * |x - y| := by
  have e : (minJerkSecondDeriv x : ℝ) - minJerkSecondDeriv y = (120 * (x ^ 2 + x * y + y ^ 2) - 180 * (x + y) + 60) * (x - y) := by
    rw [minJerkSecondDeriv_real, minJerkSecondDeriv_real]; ring
  rw [e, abs_mul]
  refine mul_le_mul_of_nonneg_right (abs_le.2 ⟨?_, ?_⟩) (abs_nonneg _)
  · nlinarith [sq_nonneg (x + y - 1), sq_nonneg (x - y)]
  · nlinarith [mul_nonneg hx.1 (sub_nonneg.2 hx.2), mul_nonneg hy.1 (sub_nonneg.2 hy.2), sq_nonneg (x - y)]

/-- The clamped time. -/
noncomputable def clamp01 (t : ℝ) : ℝ := max 0 (min 1 t)

theorem clamp01_mem (t : ℝ) : 0 ≤ clamp01 t ∧ clamp01 t ≤ 1 := ⟨le_max_left _ _, max_le zero_le_one (min_le_left _ _)⟩

theorem clamp01_lip (s t : ℝ) : |clamp01 s - clamp01 t| ≤ |s - t| := by
  unfold clamp01
  refine (abs_max_sub_max_le_max _ _ _ _).trans ?_
  rw [sub_self, abs_zero, max_eq_right (abs_nonneg _)]
  refine (abs_min_sub_min_le_max _ _ _ _).trans ?_
  rw [sub_self, abs_zero, max_eq_right (abs_nonneg _)]

theorem cogAcc_clamp (t : ℝ) : (Bipedal.cogZ t).2 = -(7 / 10) * minJerkSecondDeriv (clamp01 (t - 7)) + 7 / 10 * minJerkSecondDeriv (clamp01 (t - 12)) := by
  have lo : ∀ x : ℝ, x ≤ 0 → (minJerkSecondDeriv (clamp01 x) : ℝ) = 0 := fun x hx => by
    rw [clamp01, min_eq_right (by linarith), max_eq_left hx, minJerkSecondDeriv_real]; norm_num
  have hi : ∀ x : ℝ, 1 ≤ x → (minJerkSecondDeriv (clamp01 x) : ℝ) = 0 := fun x hx => by
    rw [clamp01, min_eq_left hx, max_eq_right zero_le_one, minJerkSecondDeriv_real]; norm_num
  have mid : ∀ x : ℝ, 0 ≤ x → x ≤ 1 → clamp01 x = x := fun x h0 h1 => by rw [clamp01, min_eq_right h1, max_eq_right h0]
  rw [cogZ_snd]
  split_ifs with h1 h2 h3 h4
  · rw [lo _ (by linarith), lo _ (by linarith)]; ring
  · rw [mid (t - 7) (by linarith) (by linarith), lo (t - 12) (by linarith)]; ring
  · rw [hi _ (by linarith), lo (t - 12) (by linarith)]; ring
  · rw [hi (t - 7) (by linarith), mid (t - 12) (by linarith) (by linarith)]; ring
  · rw [hi (t - 7) (by linarith), hi (t - 12) (by linarith)]; ring

theorem cogAcc_lip (s t : ℝ) : |(Bipedal.cogZ s).2 - (Bipedal.cogZ t).2| ≤ 84 * |s - t| := by
  rw [cogAcc_clamp, cogAcc_clamp]
  have k : ∀ c : ℝ, |(minJerkSecondDeriv (clamp01 (s - c)) : ℝ) - minJerkSecondDeriv (clamp01 (t - c))| ≤ 60 * |s - t| := fun c => by
    refine (minJerkSecondDeriv_lip (clamp01_mem _) (clamp01_mem _)).trans ?_
    have := clamp01_lip (s - c) (t - c)
    rw [sub_sub_sub_cancel_right] at this
    linarith
  have a := abs_le.1 (k 7)
  have b := abs_le.1 (k 12)
  rw [abs_le]
  constructor <;> linarith [a.1, a.2, b.1, b.2]

theorem cogVel_le (t : ℝ) : |Bipedal.cogVel t| ≤ 21 / 16 := by
  have m : ∀ x : ℝ, 0 ≤ x → x ≤ 1 → 0 ≤ minJerkVel x ∧ minJerkVel x ≤ 15 / 8 := fun x h0 h1 => by
    have q : 0 ≤ x * (1 - x) := mul_nonneg h0 (by linarith)
    have q' : x * (1 - x) ≤ 1 / 4 := by nlinarith [sq_nonneg (x - 1 / 2)]
    have e : minJerkVel x = 30 * (x * (1 - x)) ^ 2 := by unfold minJerkVel; ring
    rw [e]
    exact ⟨by positivity, by nlinarith⟩
  unfold Bipedal.cogVel
  split_ifs with h1 h2 h3 h4
  · norm_num
  · have := m (t - 7) (by linarith) (by linarith)
    rw [abs_le]; constructor <;> linarith
  · norm_num
  · have := m (t - 12) (by linarith) (by linarith)
    rw [abs_le]; constructor <;> linarith
  · norm_num

theorem cogPos_lip (s t : ℝ) : |(Bipedal.cogZ s).1 - (Bipedal.cogZ t).1| ≤ 21 / 16 * |s - t| :=
  convex_univ.norm_image_sub_le_of_norm_hasDerivWithin_le (f := fun t => (Bipedal.cogZ t).1) (f' := Bipedal.cogVel)
    (fun t _ => (hasDerivAt_cog t).hasDerivWithinAt) (fun t _ => cogVel_le t) (mem_univ t) (mem_univ s)

/-- **C81** The squared frequency of the walking test is Lipschitz continuous in time. -/
theorem C81_omega2_lipschitz (s t : ℝ) : |Bipedal.omega2Func s - Bipedal.omega2Func t| ≤ 500 * |s - t| := by
  have hg : (grav : ℝ) = 9.80665 := by norm_num [grav]
  have hform : ∀ t, Bipedal.omega2Func t = ((Bipedal.cogZ (t + epsT)).2 + 9.80665) / (Bipedal.cogZ (t + epsT)).1 := fun t => by
    simp only [Bipedal.omega2Func, hg]
  have hd : s + epsT - (t + epsT) = s - t := by ring
  have la := cogAcc_lip (s + epsT) (t + epsT)
  have lz := cogPos_lip (s + epsT) (t + epsT)
  rw [hd] at la lz
  have zs := (cogPos_mem (s + epsT)).1
  have zt := (cogPos_mem (t + epsT)).1
  have hb : 0 ≤ Bipedal.omega2Func t ∧ Bipedal.omega2Func t ≤ 46.3 := by
    obtain ⟨-, -, -, -, -, -, -, -, -, -, -, -, h⟩ := C81_omega2
    exact ⟨by linarith [(h t).1], (h t).2.le⟩
  have key : (Bipedal.omega2Func s - Bipedal.omega2Func t) * (Bipedal.cogZ (s + epsT)).1 =
      ((Bipedal.cogZ (s + epsT)).2 - (Bipedal.cogZ (t + epsT)).2) - Bipedal.omega2Func t * ((Bipedal.cogZ (s + epsT)).1 - (Bipedal.cogZ (t + epsT)).1) := by
    rw [hform s, hform t]
    field_simp
    ring
  have h1 : |Bipedal.omega2Func s - Bipedal.omega2Func t| * (Bipedal.cogZ (s + epsT)).1 ≤ 84 * |s - t| + 46.3 * (21 / 16 * |s - t|) := by
    calc _ = |(Bipedal.omega2Func s - Bipedal.omega2Func t) * (Bipedal.cogZ (s + epsT)).1| := by rw [abs_mul, abs_of_pos (by linarith : 0 < (Bipedal.cogZ (s + epsT)).1)]
      _ ≤ _ := by
        rw [key]
        refine (abs_sub _ _).trans (add_le_add la ?_)
        rw [abs_mul, abs_of_nonneg hb.1]
        exact mul_le_mul hb.2 lz (abs_nonneg _) (by norm_num)
  have h2 : |Bipedal.omega2Func s - Bipedal.omega2Func t| * (3 / 10) ≤ |Bipedal.omega2Func s - Bipedal.omega2Func t| * (Bipedal.cogZ (s + epsT)).1 :=
    mul_le_mul_of_nonneg_left zs (abs_nonneg _)
  have := abs_nonneg (s - t)
  norm_num at h1 h2 ⊢
  linarith

/-- **C138** The walking test with its own frequency function: every motion of the pendulum `y'' = ω²(t) (y - u)` that stays within `R` is followed with an error of first order. -/
theorem C138_bipedal_test (p : Bipedal ℝ) (hp : p.omega2 = Bipedal.omega2Func) {R T dt t0 : ℝ} {N : ℕ} {X : ℕ → Vec 2 ℝ} {U : ℕ → Vec 1 ℝ} {y : ℝ → Vec 2 ℝ}
    (hdt : 0 < dt) (h1 : dt ≤ 1) (hN : N * dt ≤ T) (hU : ∀ i < N, |U i 0| ≤ R)
    (hst : ∀ i < N, X (i + 1) = (p.ddp dt).stateEq (t0 + i * dt) (X i) (U i)) (hy0 : y t0 = X 0)
    (hb : ∀ s ∈ Icc t0 (t0 + N * dt), ‖y s‖ ≤ R)
    (hy : ∀ i < N, ∀ s ∈ Icc (t0 + i * dt) (t0 + (i + 1) * dt),
      HasDerivWithinAt y ![y s 1, Bipedal.omega2Func s * (y s 0 - U i 0)] (Icc (t0 + i * dt) (t0 + (i + 1) * dt)) s) :
    ∀ i ≤ N, ‖X i - y (t0 + i * dt)‖ ≤ 1200 * R * T * Real.exp (94 * T) * dt := by
  have hb' : ∀ t, |Bipedal.omega2Func t| ≤ 46.3 := fun t => by
    obtain ⟨-, -, -, -, -, -, -, -, -, -, -, -, h⟩ := C81_omega2
    exact abs_le.2 ⟨by linarith [(h t).1], (h t).2.le⟩
  have hR : 0 ≤ R := (norm_nonneg _).trans (hb t0 ⟨le_rfl, by nlinarith [show (0 : ℝ) ≤ N * dt by positivity]⟩)
  have hT : 0 ≤ T := le_trans (by positivity) hN
  intro i hi
  refine (C138_bipedal_varying p (W := 46.3) (Λ := 500) (by norm_num) (by rwa [hp]) (fun i hi s hs => ?_) hdt h1 hN hU hst hy0 hb (by rwa [hp]) i hi).trans ?_
  · rw [hp]
    refine (C81_omega2_lipschitz _ _).trans (mul_le_mul_of_nonneg_left ?_ (by norm_num))
    rw [abs_of_nonneg (by linarith [hs.1])]
    linarith [hs.2]
  · have e : Real.exp ((1 + 2 * 46.3) * T) ≤ Real.exp (94 * T) := Real.exp_le_exp.2 (mul_le_mul_of_nonneg_right (by norm_num) hT)
    gcongr
    norm_num

/-- Frequency 1, point of pressure 0: the states of the plan follow the unstable motion `(e^t, e^t)` over one second. -/
example (refZmp : ℝ → ℝ) {dt : ℝ} (hdt : 0 < dt) (h1 : dt ≤ 1) {N : ℕ} (hN : N * dt ≤ 1) (X : ℕ → Vec 2 ℝ) (hX0 : X 0 = ![1, 1])
    (hst : ∀ i < N, X (i + 1) = ((Bipedal.default refZmp fun _ => 1).ddp dt).stateEq (0 + i * dt) (X i) 0) :
    ∀ i ≤ N, ‖X i - ![Real.exp (0 + i * dt), Real.exp (0 + i * dt)]‖ ≤ (4 * 1 + 2 * 0) * Real.exp 1 * 1 * Real.exp ((1 + 2 * 1) * 1) * dt := by
  refine C138_bipedal_varying (Bipedal.default refZmp fun _ => 1) (W := 1) (R := Real.exp 1) (Λ := 0) (T := 1) (U := fun _ => 0)
    (y := fun s => ![Real.exp s, Real.exp s]) le_rfl (fun t => by simp [Bipedal.default]) (fun i _ s _ => by simp [Bipedal.default]) hdt h1 hN
    (fun i _ => by simpa using (Real.exp_pos 1).le) hst (by simp [hX0]) (fun s hs => ?_) (fun i _ s _ => ?_)
  · have : Real.exp s ≤ Real.exp 1 := Real.exp_le_exp.2 (by linarith [hs.2])
    refine (pi_norm_le_iff_of_nonneg (Real.exp_pos 1).le).2 fun j => ?_
    fin_cases j <;> simpa using this
  · refine hasDerivWithinAt_pi.2 fun j => ?_
    have := (Real.hasDerivAt_exp s).hasDerivWithinAt (s := Icc (0 + (i : ℝ) * dt) (0 + (i + 1) * dt))
    fin_cases j
    · exact this
    · simpa [Bipedal.default] using this

/-- Standing above the point of pressure while the height changes: all hypotheses of `C138_bipedal_test` hold. -/
example (refZmp : ℝ → ℝ) {dt : ℝ} (hdt : 0 < dt) (h1 : dt ≤ 1) {N : ℕ} (X : ℕ → Vec 2 ℝ) (hX0 : X 0 = ![1, 0])
    (hst : ∀ i < N, X (i + 1) = ((Bipedal.default refZmp Bipedal.omega2Func).ddp dt).stateEq (7 + i * dt) (X i) (fun _ => 1)) :
    ∀ i ≤ N, ‖X i - ![1, 0]‖ ≤ 1200 * 1 * (N * dt) * Real.exp (94 * (N * dt)) * dt := by
  refine C138_bipedal_test (Bipedal.default refZmp Bipedal.omega2Func) rfl (U := fun _ _ => 1) (y := fun _ => ![1, 0]) hdt h1 le_rfl
    (fun i _ => by simp) hst hX0.symm (fun s _ => (pi_norm_le_iff_of_nonneg zero_le_one).2 fun j => by fin_cases j <;> simp) (fun i _ s _ => ?_)
  refine (hasDerivWithinAt_const s _ (![1, 0] : Vec 2 ℝ)).congr_deriv ?_
  funext j
  fin_cases j <;> simp

end Nmpc.Problems
