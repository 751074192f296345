import Verif.Problems.BipedalVarying
import Mathlib.Analysis.ODE.Gronwall

/-!
# C138: the motion of the pendulum of varying frequency exists
-/

namespace Nmpc.Problems

open Set Cgmres OdeOrder Matrix

/-- The motion cannot grow faster than exponentially. -/
theorem lip_gronwall {W R a b u : ℝ} {ω : ℝ → ℝ} {y : ℝ → Vec 2 ℝ} (hW : 0 ≤ W) (hR : 0 ≤ R) (hω : ∀ s, |ω s| ≤ W) (hu : |u| ≤ R)
    (hd : ∀ s ∈ Icc a b, HasDerivWithinAt y ![y s 1, ω s * (y s 0 - u)] (Icc a b) s) :
    ∀ s ∈ Icc a b, ‖y s‖ + R ≤ (‖y a‖ + R) * Real.exp ((1 + W) * (s - a)) := by
  intro s hs
  have hK : (0 : ℝ) < 1 + W := by linarith
  have h := norm_le_gronwallBound_of_norm_deriv_right_le (f := y) (f' := fun s => ![y s 1, ω s * (y s 0 - u)]) (δ := ‖y a‖) (K := 1 + W) (ε := (1 + W) * R) (a := a) (b := b)
    (fun s hs => (hd s hs).continuousWithinAt)
    (fun s hs => (hd s ⟨hs.1, hs.2.le⟩).mono_of_mem_nhdsWithin (Icc_mem_nhdsGE_of_mem hs)) le_rfl
    (fun s _ => by
      have n0 : |y s 0| ≤ ‖y s‖ := norm_le_pi_norm (y s) 0
      have n1 : |y s 1| ≤ ‖y s‖ := norm_le_pi_norm (y s) 1
      have nn := norm_nonneg (y s)
      have q : 0 ≤ W * (‖y s‖ + R) := by positivity
      refine (pi_norm_le_iff_of_nonneg (by positivity)).2 fun j => ?_
      fin_cases j
      · simp only [Fin.zero_eta, cons_val_zero, Real.norm_eq_abs]
        nlinarith
      · simp only [Fin.mk_one, cons_val_one, cons_val_fin_one, Real.norm_eq_abs]
        rw [abs_mul]
        have := mul_le_mul (hω s) ((abs_sub (y s 0) u).trans (add_le_add n0 hu)) (abs_nonneg _) hW
        nlinarith) s hs
  rw [gronwallBound_of_K_ne_0 hK.ne', mul_div_cancel_left₀ _ hK.ne'] at h
  linarith

theorem lip_varying_motion {W R T : ℝ} (hW : 0 ≤ W) (hR : 0 ≤ R) : ∃ M, 0 ≤ M ∧ ∀ (ω : ℝ → ℝ) (U : ℕ → ℝ) (x : Vec 2 ℝ) (t h : ℝ), Continuous ω → (∀ s, |ω s| ≤ W) → ‖x‖ ≤ R →
    0 ≤ h → M * h ≤ 1 → ∀ N : ℕ, N * h ≤ T → (∀ i < N, |U i| ≤ R) → ∃ y : ℝ → Vec 2 ℝ, Continuous y ∧ y t = x ∧
    (∀ i < N, ∀ s ∈ Icc (t + i * h) (t + (i + 1) * h), HasDerivWithinAt y ![y s 1, ω s * (y s 0 - U i)] (Icc (t + i * h) (t + (i + 1) * h)) s) ∧
    ∀ s ∈ Icc t (t + N * h), ‖y s‖ + R ≤ 2 * R * Real.exp ((1 + W) * (s - t)) := by
  set B := 2 * R * Real.exp ((1 + W) * T) with hB
  set ρ := max B (max W R) + 1 with hρ
  have hBρ : B + 1 ≤ ρ := by rw [hρ]; linarith [le_max_left B (max W R)]
  have hWρ : max W R ≤ ρ := by rw [hρ]; linarith [le_max_right B (max W R)]
  have hφ : ContDiff ℝ 1 fun q : Vec 2 ℝ × Vec 2 ℝ => joint lipFlow ((0 : ℝ), q.2, q.1) := lipFlow_contDiff.comp (by fun_prop)
  obtain ⟨M, hM0, hM⟩ := Cgmres.bounded_on_ball hφ.continuous ρ
  refine ⟨M, hM0, fun ω U x t h hc hω hx hh hMh N => ?_⟩
  induction N with
  | zero =>
    intro _ _
    refine ⟨fun _ => x, continuous_const, rfl, by simp, fun s hs => ?_⟩
    simp only [Nat.cast_zero, zero_mul, add_zero, Icc_self, mem_singleton_iff] at hs
    rw [hs, sub_self, mul_zero, Real.exp_zero]
    linarith
  | succ N ih =>
    intro hN hU
    push_cast at hN
    have hNh : 0 ≤ (N : ℝ) * h := by positivity
    obtain ⟨y, yc, y0, yd, yb⟩ := ih (by linarith) (fun i hi => hU i (by omega))
    have hyN := yb (t + N * h) ⟨by linarith, le_rfl⟩
    have hyB : ‖y (t + N * h)‖ ≤ B := by
      have : 2 * R * Real.exp ((1 + W) * (t + N * h - t)) ≤ B :=
        mul_le_mul_of_nonneg_left (Real.exp_le_exp.2 (mul_le_mul_of_nonneg_left (by linarith) (by linarith))) (by linarith)
      linarith
    have e : t + ((N : ℝ) + 1) * h - (t + N * h) = h := by ring
    obtain ⟨z, zc, ze, zd, -⟩ := exists_stage hφ hM0 hM (a := t + N * h) (b := t + (N + 1) * h) (e := t + N * h) ⟨le_rfl, by linarith⟩ (c := fun s => ![ω s, U N])
      (Continuous.continuousOn (continuous_pi fun j => by
        fin_cases j
        · simpa using hc
        · simpa using continuous_const))
      (fun s _ => by
        refine le_trans ((pi_norm_le_iff_of_nonneg (hW.trans (le_max_left _ _))).2 fun j => ?_) hWρ
        fin_cases j
        · exact (hω s).trans (le_max_left _ _)
        · exact (hU N (by omega)).trans (le_max_right _ _)) (x := y (t + N * h)) (by rw [e]; linarith)
    have zd' : ∀ s ∈ Icc (t + N * h) (t + (N + 1) * h), HasDerivWithinAt z ![z s 1, ω s * (z s 0 - U N)] (Icc (t + N * h) (t + (N + 1) * h)) s := fun s hs => by
      simpa [joint, lipFlow] using zd s hs
    have zb := lip_gronwall hW hR hω (hU N (by omega)) zd'
    obtain ⟨g1, g2⟩ := LinearOde.glue (y := y) (z := z) (e := t + N * h) ze.symm
    refine ⟨fun s => if s ≤ t + N * h then y s else z s, yc.if_le zc continuous_id continuous_const fun s hs => by rw [hs, ze], ?_, ?_, ?_⟩
    · rw [g1 _ (by linarith), y0]
    · intro i hi s hs
      rcases (Nat.lt_succ_iff.1 hi).eq_or_lt with rfl | hi
      · rw [g2 s hs.1]
        exact (zd' s hs).congr (fun r hr => g2 r hr.1) (g2 s hs.1)
      · have hle : t + ((i : ℝ) + 1) * h ≤ t + N * h := by
          have : (i : ℝ) + 1 ≤ N := by exact_mod_cast hi
          nlinarith
        rw [g1 s (hs.2.trans hle)]
        exact (yd i hi s hs).congr (fun r hr => g1 r (hr.2.trans hle)) (g1 s (hs.2.trans hle))
    · intro s hs
      rw [Nat.cast_succ] at hs
      rcases le_total s (t + N * h) with hl | hl
      · rw [g1 s hl]
        exact yb s ⟨hs.1, hl⟩
      · rw [g2 s hl]
        refine (zb s ⟨hl, hs.2⟩).trans ?_
        rw [ze]
        refine (mul_le_mul_of_nonneg_right hyN (Real.exp_pos _).le).trans (le_of_eq ?_)
        rw [mul_assoc, ← Real.exp_add]
        ring_nf

/-- **C138** Bipedal walking with any squared frequency bounded by `W` and Lipschitz continuous with constant `Λ`: for every duration there is a constant, the same for all these frequencies, such that, for
every small step, states and inputs that follow the state equation from a state within `R` with points of pressure within `R` follow a motion of the pendulum `y'' = ω²(t) (y - u)` under the held points
of pressure, which exists and starts at the same state, with an error of first order. -/
theorem C138_bipedal_varying_motion {W Λ R : ℝ} (hW : 0 ≤ W) (hΛ0 : 0 ≤ Λ) (hR : 0 ≤ R) (T : ℝ) : ∃ A, 0 < A ∧ ∀ (p : Bipedal ℝ), (∀ t, |p.omega2 t| ≤ W) →
    (∀ s t, |p.omega2 s - p.omega2 t| ≤ Λ * |s - t|) → ∀ (dt t0 : ℝ) (N : ℕ) (X : ℕ → Vec 2 ℝ) (U : ℕ → Vec 1 ℝ),
    0 < dt → A * dt ≤ 1 → N * dt ≤ T → ‖X 0‖ ≤ R → (∀ i < N, |U i 0| ≤ R) → (∀ i < N, X (i + 1) = (p.ddp dt).stateEq (t0 + i * dt) (X i) (U i)) →
    ∃ y : ℝ → Vec 2 ℝ, Continuous y ∧ y t0 = X 0 ∧
      (∀ i < N, ∀ s ∈ Icc (t0 + i * dt) (t0 + (i + 1) * dt),
        HasDerivWithinAt y ![y s 1, p.omega2 s * (y s 0 - U i 0)] (Icc (t0 + i * dt) (t0 + (i + 1) * dt)) s) ∧
      ∀ i ≤ N, ‖X i - y (t0 + i * dt)‖ ≤ A * dt := by
  obtain ⟨M, hM0, hM⟩ := lip_varying_motion (T := T) hW hR
  set R' := R + 2 * R * Real.exp ((1 + W) * T) with hR'
  have hR'0 : 0 ≤ R' := by positivity
  set A := 1 + M + (4 * W + 2 * Λ) * R' * |T| * Real.exp ((1 + 2 * W) * T) with hA
  have hA0 : 0 ≤ (4 * W + 2 * Λ) * R' * |T| * Real.exp ((1 + 2 * W) * T) := by positivity
  refine ⟨A, by linarith, fun p hω hΛ dt t0 N X U hdt hAdt hN hX hU hst => ?_⟩
  have hc : Continuous p.omega2 := (LipschitzWith.of_dist_le_mul (K := ⟨Λ, hΛ0⟩) fun s t => hΛ s t).continuous
  have hT : 0 ≤ T := le_trans (by positivity) hN
  have hd1 : 1 * dt ≤ A * dt := mul_le_mul_of_nonneg_right (by linarith) hdt.le
  have hd2 : M * dt ≤ A * dt := mul_le_mul_of_nonneg_right (by linarith) hdt.le
  obtain ⟨y, yc, y0, yd, yb⟩ := hM p.omega2 (fun i => U i 0) (X 0) t0 dt hc hω hX hdt.le (hd2.trans hAdt) N hN hU
  refine ⟨y, yc, y0, yd, fun i hi => ?_⟩
  have hyb : ∀ s ∈ Icc t0 (t0 + N * dt), ‖y s‖ ≤ R' := fun s hs => by
    have h1 := yb s hs
    have h2 : 2 * R * Real.exp ((1 + W) * (s - t0)) ≤ 2 * R * Real.exp ((1 + W) * T) :=
      mul_le_mul_of_nonneg_left (Real.exp_le_exp.2 (mul_le_mul_of_nonneg_left (by linarith [hs.2]) (by linarith))) (by linarith)
    linarith
  have hRR : R ≤ R' := by rw [hR']; linarith [show 0 ≤ 2 * R * Real.exp ((1 + W) * T) by positivity]
  refine (C138_bipedal_varying p hΛ0 hω (fun i _ s hs => ?_) hdt (by linarith) hN (fun i hi => (hU i hi).trans hRR) hst y0 hyb yd i hi).trans ?_
  · refine (hΛ _ _).trans (mul_le_mul_of_nonneg_left ?_ hΛ0)
    rw [abs_of_nonneg (by linarith [hs.1])]
    linarith [hs.2]
  · refine mul_le_mul_of_nonneg_right ?_ hdt.le
    rw [hA, abs_of_nonneg hT]
    linarith

/-- **C138** The same for the walking test with its own frequency function. -/
theorem C138_bipedal_test_motion {R : ℝ} (hR : 0 ≤ R) (T : ℝ) : ∃ A, 0 < A ∧ ∀ (p : Bipedal ℝ), p.omega2 = Bipedal.omega2Func → ∀ (dt t0 : ℝ) (N : ℕ) (X : ℕ → Vec 2 ℝ) (U : ℕ → Vec 1 ℝ),
    0 < dt → A * dt ≤ 1 → N * dt ≤ T → ‖X 0‖ ≤ R → (∀ i < N, |U i 0| ≤ R) → (∀ i < N, X (i + 1) = (p.ddp dt).stateEq (t0 + i * dt) (X i) (U i)) →
    ∃ y : ℝ → Vec 2 ℝ, Continuous y ∧ y t0 = X 0 ∧
      (∀ i < N, ∀ s ∈ Icc (t0 + i * dt) (t0 + (i + 1) * dt),
        HasDerivWithinAt y ![y s 1, Bipedal.omega2Func s * (y s 0 - U i 0)] (Icc (t0 + i * dt) (t0 + (i + 1) * dt)) s) ∧
      ∀ i ≤ N, ‖X i - y (t0 + i * dt)‖ ≤ A * dt := by
  have hb : ∀ t, |Bipedal.omega2Func t| ≤ 46.3 := fun t => by
    obtain ⟨-, -, -, -, -, -, -, -, -, -, -, -, h⟩ := C81_omega2
    exact abs_le.2 ⟨by linarith [(h t).1], (h t).2.le⟩
  obtain ⟨A, hA, h⟩ := C138_bipedal_varying_motion (W := 46.3) (Λ := 500) (by norm_num) (by norm_num) hR T
  refine ⟨A, hA, fun p hp => ?_⟩
  have := h p (by rwa [hp]) (by rw [hp]; exact C81_omega2_lipschitz)
  rwa [hp] at this

/-- One second of walking from rest, while the height is lowered, with the point of pressure 10 cm behind: a motion is followed for all small steps. -/
example (refZmp : ℝ → ℝ) : ∃ A : ℝ, 0 < A ∧ ∀ (N : ℕ) (X : ℕ → Vec 2 ℝ), 0 < N → A ≤ (N : ℝ) → X 0 = 0 →
    (∀ i < N, X (i + 1) = ((Bipedal.default refZmp Bipedal.omega2Func).ddp (1 / N)).stateEq (7 + i * (1 / N)) (X i) (fun _ => -(1 / 10))) →
    ∃ y : ℝ → Vec 2 ℝ, y 7 = 0 ∧ (∀ i < N, ∀ s ∈ Icc (7 + i * (1 / N) : ℝ) (7 + (i + 1) * (1 / N)),
      HasDerivWithinAt y ![y s 1, Bipedal.omega2Func s * (y s 0 - -(1 / 10))] (Icc (7 + i * (1 / N) : ℝ) (7 + (i + 1) * (1 / N))) s) ∧ ‖X N - y 8‖ ≤ A / N := by
  obtain ⟨A, hA, h⟩ := C138_bipedal_test_motion (R := 1) zero_le_one 1
  refine ⟨A, hA, fun N X hN hAN hX hst => ?_⟩
  have hN' : (0 : ℝ) < N := by exact_mod_cast hN
  obtain ⟨y, -, y0, yd, hy⟩ := h (Bipedal.default refZmp Bipedal.omega2Func) rfl (1 / N) 7 N X (fun _ _ => -(1 / 10)) (by positivity)
    (by rw [mul_one_div]; exact (div_le_one hN').2 hAN) (by field_simp; exact le_rfl) (by simp [hX]) (fun i _ => by norm_num [abs_le]) hst
  refine ⟨y, y0.trans hX, yd, ?_⟩
  have := hy N le_rfl
  rwa [mul_one_div, mul_one_div, div_self hN'.ne', show (7 : ℝ) + 1 = 8 by norm_num] at this

/-- A frequency other than that of the test, `1 + sin t`. -/
example (refZmp : ℝ → ℝ) : ∃ A : ℝ, 0 < A ∧ ∀ (N : ℕ) (X : ℕ → Vec 2 ℝ), 0 < N → A ≤ (N : ℝ) → X 0 = ![1, 0] →
    (∀ i < N, X (i + 1) = ((Bipedal.default refZmp fun t => 1 + Real.sin t).ddp (1 / N)).stateEq (0 + i * (1 / N)) (X i) 0) →
    ∃ y : ℝ → Vec 2 ℝ, y 0 = ![1, 0] ∧ (∀ i < N, ∀ s ∈ Icc (0 + i * (1 / N) : ℝ) (0 + (i + 1) * (1 / N)),
      HasDerivWithinAt y ![y s 1, (1 + Real.sin s) * (y s 0 - 0)] (Icc (0 + i * (1 / N) : ℝ) (0 + (i + 1) * (1 / N))) s) ∧ ‖X N - y 1‖ ≤ A / N := by
  obtain ⟨A, hA, h⟩ := C138_bipedal_varying_motion (W := 2) (Λ := 1) (R := 1) (by norm_num) zero_le_one zero_le_one 1
  refine ⟨A, hA, fun N X hN hAN hX hst => ?_⟩
  have hN' : (0 : ℝ) < N := by exact_mod_cast hN
  obtain ⟨y, -, y0, yd, hy⟩ := h (Bipedal.default refZmp fun t => 1 + Real.sin t)
    (fun t => abs_le.2 ⟨by simp only [Bipedal.default]; linarith [Real.neg_one_le_sin t], by simp only [Bipedal.default]; linarith [Real.sin_le_one t]⟩)
    (fun s t => by
      have := Real.abs_sin_sub_sin_le s t
      simpa [Bipedal.default] using this) (1 / N) 0 N X 0 (by positivity)
    (by rw [mul_one_div]; exact (div_le_one hN').2 hAN) (by field_simp; exact le_rfl)
    (by rw [hX]; exact (pi_norm_le_iff_of_nonneg zero_le_one).2 fun j => by fin_cases j <;> simp) (fun i _ => by simp) hst
  refine ⟨y, y0.trans hX, yd, ?_⟩
  have := hy N le_rfl
  rwa [mul_one_div, mul_one_div, div_self hN'.ne', zero_add] at this

end Nmpc.Problems
