import Verif.CGMRES.ExtremalExists
import Verif.CGMRES.LinearOde
import Verif.Problems.PontryaginCases

/-!
# C148 for the semiactive damper: the continuous state and costate of every plan exist and are bounded; start of the simulation of the cart-pole
-/

namespace Nmpc.Problems

open Set Finset Matrix
open Cgmres hiding Problem

variable (p : Damper ℝ)

/-- The state equation for a given input, as a linear map. -/
noncomputable def damperState (u : ℝ) : Vec 2 ℝ →L[ℝ] Vec 2 ℝ :=
  LinearMap.toContinuousLinearMap
    { toFun := fun x => ![x 1, p.a * x 0 + p.b * x 1 * u]
      map_add' := fun x y => by ext i; fin_cases i <;> simp <;> ring
      map_smul' := fun c x => by ext i; fin_cases i <;> simp <;> ring }

/-- The homogeneous part of the costate equation. -/
noncomputable def damperCostate (u : ℝ) : Vec 2 ℝ →L[ℝ] Vec 2 ℝ :=
  LinearMap.toContinuousLinearMap
    { toFun := fun l => ![-p.a * l 1, -p.b * l 1 * u - l 0]
      map_add' := fun x y => by ext i; fin_cases i <;> simp <;> ring
      map_smul' := fun c x => by ext i; fin_cases i <;> simp <;> ring }

theorem norm_pair_le {a b c : ℝ} (ha : |a| ≤ c) (hb : |b| ≤ c) : ‖(![a, b] : Vec 2 ℝ)‖ ≤ c := by
  refine (pi_norm_le_iff_of_nonneg ((abs_nonneg a).trans ha)).2 fun i => ?_
  fin_cases i
  · exact ha
  · exact hb

variable {p}

theorem damperState_norm {u R : ℝ} (hu : |u| ≤ R) : ‖damperState p u‖ ≤ 1 + |p.a| + |p.b| * R := by
  have hR : 0 ≤ R := (abs_nonneg u).trans hu
  refine ContinuousLinearMap.opNorm_le_bound _ (by positivity) fun x => ?_
  have h0 : |x 0| ≤ ‖x‖ := norm_le_pi_norm x 0
  have h1 : |x 1| ≤ ‖x‖ := norm_le_pi_norm x 1
  have a0 := abs_nonneg p.a
  have b0 := mul_nonneg (abs_nonneg p.b) hR
  have n0 := norm_nonneg x
  refine norm_pair_le (h1.trans (by nlinarith)) ((abs_add_le _ _).trans ?_)
  rw [abs_mul, abs_mul, abs_mul]
  have : |p.b| * |x 1| * |u| ≤ |p.b| * ‖x‖ * R := by gcongr
  have : |p.a| * |x 0| ≤ |p.a| * ‖x‖ := by gcongr
  nlinarith

theorem damperCostate_norm {u R : ℝ} (hu : |u| ≤ R) : ‖damperCostate p u‖ ≤ 1 + |p.a| + |p.b| * R := by
  have hR : 0 ≤ R := (abs_nonneg u).trans hu
  refine ContinuousLinearMap.opNorm_le_bound _ (by positivity) fun x => ?_
  have h0 : |x 0| ≤ ‖x‖ := norm_le_pi_norm x 0
  have h1 : |x 1| ≤ ‖x‖ := norm_le_pi_norm x 1
  have a0 := abs_nonneg p.a
  have b0 := mul_nonneg (abs_nonneg p.b) hR
  have n0 := norm_nonneg x
  refine norm_pair_le ?_ ((abs_sub _ _).trans ?_)
  · rw [abs_mul, abs_neg]
    have : |p.a| * |x 1| ≤ |p.a| * ‖x‖ := by gcongr
    nlinarith
  · rw [abs_mul, abs_mul, abs_neg]
    have : |p.b| * |x 1| * |u| ≤ |p.b| * ‖x‖ * R := by gcongr
    nlinarith [mul_nonneg a0 n0]

variable (p) in
/-- **C148**, semiactive damper: for every bound `R` on the state and the inputs there is a bound `R'` such that the plan, with any number of stages, has an exact continuous
state and costate on the horizon, bounded by `R'`. -/
theorem C148_damper_extremal (H R : ℝ) (hH : 0 ≤ H) (hR : 0 ≤ R) : ∃ R', R ≤ R' ∧ ∀ (N : ℕ) (t D : ℝ) (x : Vec 2 ℝ) (U : Fin N → Vec 3 ℝ), 0 < N → 0 ≤ D → D ≤ H → ‖x‖ ≤ R →
    (∀ i, ‖U i‖ ≤ R) → ∃ y lam : ℝ → Vec 2 ℝ, y t = x ∧ Extremal p.problem t D U y lam ∧ ∀ s ∈ Icc t (t + D), ‖y s‖ ≤ R' ∧ ‖lam s‖ ≤ R' := by
  set K := 1 + |p.a| + |p.b| * R with hKd
  have hK : 0 ≤ K := by positivity
  set Y := Real.exp (K * H) * R with hY
  have hY0 : 0 ≤ Y := by positivity
  set G := (|p.q1| + |p.q2|) * Y with hG
  have hG0 : 0 ≤ G := by positivity
  set G' := Real.exp (K * H) * G with hG'
  have hG1 : 0 ≤ G' := by positivity
  set M := Real.exp (K * H) * ((|p.sf1| + |p.sf2|) * Y + H * G') with hM
  have hM0 : 0 ≤ M := by positivity
  refine ⟨R + Y + M, by linarith, fun N t D x U hN hD hDH hx hU => ?_⟩
  have hN' : (0 : ℝ) < N := by exact_mod_cast hN
  have hN1 : (1 : ℝ) ≤ N := by exact_mod_cast hN
  have hh : 0 ≤ D / N := by positivity
  have hND : (N : ℝ) * (D / N) = D := by field_simp
  have hhH : D / N ≤ H := (div_le_self hD hN1).trans hDH
  have hc : ∀ i < N, ∀ j, |colAt U i j| ≤ R := fun i hi j => by
    rw [colAt, dif_pos hi]
    exact (norm_le_pi_norm (U ⟨i, hi⟩) j).trans (hU _)
  obtain ⟨y, yc, y0, yd, yb⟩ := LinearOde.forward (fun i => damperState p (colAt U i 0)) t (D / N) hh x N fun i hi => damperState_norm (hc i hi 0)
  rw [hND, ← hKd] at yb
  have yB : ∀ s ∈ Icc t (t + D), ‖y s‖ ≤ Y := fun s hs => by
    refine (yb s hs).trans (mul_le_mul (Real.exp_le_exp.2 (mul_le_mul_of_nonneg_left ?_ hK)) hx (norm_nonneg _) (Real.exp_pos _).le)
    linarith [hs.2]
  have hscale : ∀ (c d : ℝ) (v : Vec 2 ℝ), ‖v‖ ≤ Y → ‖(![c * v 0, d * v 1] : Vec 2 ℝ)‖ ≤ (|c| + |d|) * Y := fun c d v hv => by
    have h0 : |v 0| ≤ Y := (norm_le_pi_norm v 0).trans hv
    have h1 : |v 1| ≤ Y := (norm_le_pi_norm v 1).trans hv
    have c0 := abs_nonneg c
    have d0 := abs_nonneg d
    refine norm_pair_le ?_ ?_ <;> rw [abs_mul] <;> nlinarith
  obtain ⟨lam, l0, ld, lb⟩ := LinearOde.backward (K := K) (G := G) (G' := G') hK hh hG0
    (mul_le_mul_of_nonneg_right (Real.exp_le_exp.2 (mul_le_mul_of_nonneg_left hhH hK)) hG0) (p.problem.dphidx (t + D) (y (t + D))) N
    (fun i => damperCostate p (colAt U i 1)) (fun _ s => ![-p.q1 * y s 0, -p.q2 * y s 1]) t (fun i hi => damperCostate_norm (hc i hi 1))
    (fun _ => by
      refine continuous_pi fun i => ?_
      fin_cases i <;> simp <;> fun_prop)
    (fun i hi s hs => by
      have := hscale (-p.q1) (-p.q2) (y s) (yB s (by rwa [hND] at hs))
      rwa [abs_neg, abs_neg] at this)
  rw [hND] at l0 lb
  refine ⟨y, lam, y0, ⟨fun i hi s hs => (yd i hi s hs).congr_deriv rfl, fun i hi s hs => (ld i hi s hs).congr_deriv ?_, l0⟩, fun s hs => ⟨(yB s hs).trans (by linarith), ?_⟩⟩
  · ext j
    have e3 : (Fin.append (y s) (colAt U i) : Vec 5 ℝ) 3 = colAt U i 1 := rfl
    have e0 : (Fin.append (y s) (colAt U i) : Vec 5 ℝ) 0 = y s 0 := rfl
    have e1 : (Fin.append (y s) (colAt U i) : Vec 5 ℝ) 1 = y s 1 := rfl
    fin_cases j
    · change -p.a * lam s 1 + -p.q1 * y s 0 = -p.a * lam s 1 - p.q1 * y s 0
      ring
    · change -p.b * lam s 1 * colAt U i 1 - lam s 0 + -p.q2 * y s 1 = -p.b * lam s 1 * colAt U i 1 - p.q2 * y s 1 - lam s 0
      ring
  · refine (lb s hs).trans (le_trans (b := M) ?_ (by linarith))
    have h1 : ‖p.problem.dphidx (t + D) (y (t + D))‖ ≤ (|p.sf1| + |p.sf2|) * Y := hscale p.sf1 p.sf2 (y (t + D)) (yB _ ⟨by linarith, le_rfl⟩)
    have h2 : t + D - s ≤ H := by linarith [hs.1]
    have h3 : 0 ≤ t + D - s := by linarith [hs.2]
    exact mul_le_mul (Real.exp_le_exp.2 (mul_le_mul_of_nonneg_left h2 hK)) (add_le_add h1 (mul_le_mul_of_nonneg_right h2 hG1))
      (by positivity) (Real.exp_pos _).le

/-- **C148**, semiactive damper without assumption on the continuous trajectories: whenever state and plan of round `k` are bounded by `R`, the exact continuous state and costate of
the plan exist (they are unique by `C148_extremal_unique`), and the gradient of the Hamiltonian along them is small. -/
theorem C148_damper_run (p : Damper ℝ) {ode : Ode ℝ} (ho : ode.FirstOrder) {H a : ℝ} (hH : 0 ≤ H) (ha : 0 ≤ a) (R : ℝ) (hR : 0 ≤ R) :
    ∃ (C : ℝ) (N₀ : ℕ), ∀ (L : Gmres.Dense ℝ) (simOde : Ode ℝ) (cfg : Cgmres.Config ℝ), cfg.steadyHorizon = H → cfg.increaseRatio = a →
    (N₀ : ℤ) ≤ cfg.divideNum → 0 < cfg.divideNum → 0 < cfg.dt → cfg.dumpStep ≠ 0 → 0 ≤ cfg.kMax → cfg.delta ≠ 0 →
    ∃ (T : Trajectory L p.problem ode simOde cfg cfg.divideNum.toNat) (s : _), run L p.problem ode simOde cfg = .ok s ∧
      s.dump = ((List.range s.i).filter fun j : ℕ => cfg.dumpStep ∣ (j : ℤ)).map T.line ∧
      ∀ (k : ℕ) (ε : ℝ), (∀ j < k, T.defect j ≤ ε) →
        let t := k * cfg.dt
        let D := horizonDuration cfg t
        let h := D / cfg.divideNum.toNat
        let q := |1 - cfg.zeta * cfg.dt|
        t ≤ R → ‖T.x k‖ ≤ R → (∀ i, ‖(T.mem k).uList i‖ ≤ R) → (∃ y lam : ℝ → Vec 2 ℝ, y t = T.x k ∧ Extremal p.problem t D (T.mem k).uList y lam) ∧
        ∀ y lam : ℝ → Vec 2 ℝ, y t = T.x k → Extremal p.problem t D (T.mem k).uList y lam → ∀ i : Fin cfg.divideNum.toNat, ‖p.problem.dhdu (t + (i : ℕ) * h) (y (t + (i : ℕ) * h)) ((T.mem k).uList i) (lam (t + (i : ℕ) * h))‖ ≤
          q ^ k * (T.line 0).err + cfg.dt * ε * ∑ j ∈ range k, q ^ j + C / cfg.divideNum.toNat := by
  obtain ⟨R', hRR, hex⟩ := C148_damper_extremal p H R hH hR
  obtain ⟨C, N₀, hrun⟩ := C148_damper p ho hH ha R'
  refine ⟨C, N₀, fun L simOde cfg h1 h2 h3 h4 h5 h6 h7 h8 => ?_⟩
  obtain ⟨T, s, hs, hd, hk⟩ := hrun L simOde cfg h1 h2 h3 h4 h5 h6 h7 h8
  refine ⟨T, s, hs, hd, fun k ε hε => ?_⟩
  intro t D h q ht hx hU
  have ht0 : 0 ≤ t := by positivity
  have he : Real.exp (-cfg.increaseRatio * t) ≤ 1 := Real.exp_le_one_iff.2 (by rw [h2]; nlinarith)
  have he0 := Real.exp_pos (-cfg.increaseRatio * t)
  have hD : D = H * (1 - Real.exp (-cfg.increaseRatio * t)) := by rw [← h1]; rfl
  have hD0 : 0 ≤ D := by rw [hD]; nlinarith
  have hN : 0 < cfg.divideNum.toNat := by omega
  obtain ⟨y, lam, y0, hy, hb⟩ := hex cfg.divideNum.toNat t D (T.x k) (T.mem k).uList hN hD0 (by rw [hD]; nlinarith) hx hU
  refine ⟨⟨y, lam, y0, hy⟩, fun z mu z0 hz => hk k ε z mu hε (ht.trans hRR) (fun i => (hU i).trans hRR) z0 (fun s hs => ?_) hz⟩
  obtain ⟨e1, e2⟩ := C148_extremal_unique p.problem (damper_smooth p).state (damper_smooth p).costate hN hD0 hy hz (y0.trans z0.symm)
  rw [← e1 hs, ← e2 hs]
  exact hb s hs

/-- The parameters of the tests. -/
example := C148_damper_run (Damper.default : Damper ℝ) euler_firstOrder (H := 1) (a := 1 / 2) (by norm_num) (by norm_num) 10 (by norm_num)

/-- `C148_extremal_unique` applies to a plan of the damper that has an extremal: both hypotheses about solutions are met. -/
example (U : Fin 4 → Vec 3 ℝ) (hU : ∀ i, ‖U i‖ ≤ 1) : ∃ y lam : ℝ → Vec 2 ℝ, y 0 = ![1, 0] ∧ Extremal (Damper.default : Damper ℝ).problem 0 1 U y lam ∧
    ∀ z mu : ℝ → Vec 2 ℝ, z 0 = ![1, 0] → Extremal (Damper.default : Damper ℝ).problem 0 1 U z mu → EqOn y z (Icc 0 1) ∧ EqOn lam mu (Icc 0 1) := by
  obtain ⟨R', -, h⟩ := C148_damper_extremal (Damper.default : Damper ℝ) 1 1 zero_le_one zero_le_one
  obtain ⟨y, lam, y0, hy, -⟩ := h 4 0 1 ![1, 0] U (by norm_num) zero_le_one le_rfl (norm_pair_le (by simp) (by simp)) hU
  refine ⟨y, lam, y0, hy, fun z mu z0 hz => ?_⟩
  have := C148_extremal_unique _ (damper_smooth _).state (damper_smooth _).costate (by norm_num) zero_le_one hy hz (y0.trans z0.symm)
  rwa [zero_add] at this

/-- The theorems about the start of the simulation apply to the cart-pole, with and without input bound. -/
example (R : ℝ) :=
  let h := cgCartPole_bounded_smooth (p := (CgCartPole.default : CgCartPole ℝ)) (by norm_num [CgCartPole.default]) (by norm_num [CgCartPole.default])
    (by norm_num [CgCartPole.default]) fun _ => contDiff_const
  C148_start (CgCartPole.default : CgCartPole ℝ).bounded eulerOde euler_firstOrder 1 (1 / 2) (by norm_num) (by norm_num) h.state h.costate h.terminal h.gradient R

end Nmpc.Problems
