import Mathlib.Algebra.Order.Chebyshev
import Verif.Problems.CartPoleEnergy
import Verif.Problems.DamperExtremal

/-!
# C148 for the cart-pole of C/GMRES: the continuous state and costate of every plan exist and are bounded
-/

namespace Nmpc.Problems

open Set Finset Matrix
open Cgmres hiding Problem

variable {n m : ℕ}

/-- The costate equation is affine in the costate. -/
def CostateAffine (P : Cgmres.Problem n m ℝ) : Prop :=
  ∀ s l w, P.costateEq s l w = P.costateEq s 0 w + ∑ j, l j • (P.costateEq s (Pi.single j 1) w - P.costateEq s 0 w)

/-- A function of the state that bounds it and grows at most exponentially as long as the inputs are bounded. -/
def StateGrowth (P : Cgmres.Problem n m ℝ) : Prop :=
  ∃ (V : Vec n ℝ → ℝ) (V' : Vec n ℝ → Vec n ℝ →L[ℝ] ℝ), (∀ x, HasFDerivAt V (V' x) x) ∧ (∀ x, 0 ≤ V x) ∧
    (∀ R, ∃ k, 0 ≤ k ∧ ∀ s x u, ‖u‖ ≤ R → V' x (P.stateEq s x u) ≤ k * V x) ∧ ∀ v, ∃ B, 0 ≤ B ∧ ∀ x, V x ≤ v → ‖x‖ ≤ B

/-- `1 + |l|²` and its derivative. -/
noncomputable def sqV (l : Vec n ℝ) : ℝ := 1 + ∑ i, l i * l i

noncomputable def sqV' (l : Vec n ℝ) : Vec n ℝ →L[ℝ] ℝ :=
  LinearMap.toContinuousLinearMap
    { toFun := fun v => ∑ i, 2 * l i * v i
      map_add' := fun v w => by simp [mul_add, Finset.sum_add_distrib]
      map_smul' := fun c v => by
        simp only [Pi.smul_apply, smul_eq_mul, RingHom.id_apply, Finset.mul_sum]
        exact Finset.sum_congr rfl fun i _ => by ring }

theorem sqV_hasFDerivAt (l : Vec n ℝ) : HasFDerivAt sqV (sqV' l) l := by
  have h : ∀ i, HasFDerivAt (fun x : Vec n ℝ => x i) (ContinuousLinearMap.proj (R := ℝ) (φ := fun _ : Fin n => ℝ) i) l := fun i => hasFDerivAt_apply i l
  refine ((HasFDerivAt.fun_sum fun i (_ : i ∈ Finset.univ) => (h i).mul (h i)).const_add 1).congr_fderiv ?_
  ext v
  simp only [sqV', _root_.sum_apply, _root_.add_apply, _root_.smul_apply, ContinuousLinearMap.proj_apply, smul_eq_mul]
  exact Finset.sum_congr rfl fun i _ => by ring

theorem sqV_nonneg (l : Vec n ℝ) : 0 ≤ sqV l := add_nonneg zero_le_one (Finset.sum_nonneg fun _ _ => mul_self_nonneg _)

theorem norm_le_sqV (l : Vec n ℝ) : ‖l‖ ≤ Real.sqrt (sqV l) := by
  refine (pi_norm_le_iff_of_nonneg (Real.sqrt_nonneg _)).2 fun i => Real.abs_le_sqrt ?_
  have := Finset.single_le_sum (f := fun i => l i * l i) (fun i _ => mul_self_nonneg (l i)) (Finset.mem_univ i)
  unfold sqV
  rw [sq]
  linarith

theorem sqV_le {l : Vec n ℝ} {L : ℝ} (h : ‖l‖ ≤ L) : sqV l ≤ 1 + n * L ^ 2 := by
  have : ∑ i, l i * l i ≤ ∑ _i : Fin n, L ^ 2 := Finset.sum_le_sum fun i _ => by
    have := (norm_le_pi_norm l i).trans h
    rw [← abs_mul_abs_self, ← sq]
    exact pow_le_pow_left₀ (abs_nonneg _) this 2
  simp only [Finset.sum_const, Finset.card_univ, Fintype.card_fin, nsmul_eq_mul] at this
  unfold sqV
  linarith

/-- Growth of an affine vector field. -/
theorem sqV_growth {F : Vec n ℝ} {l : Vec n ℝ} {G : Fin n → Vec n ℝ} {F₀ : Vec n ℝ} {a : ℝ} (ha : 0 ≤ a) (h0 : ‖F₀‖ ≤ a) (hG : ∀ j, ‖G j‖ ≤ a)
    (hF : F = F₀ + ∑ j, l j • (G j - F₀)) : |sqV' l F| ≤ 6 * a * (1 + n) * sqV l := by
  set S := ∑ j, |l j| with hS
  have hS0 : 0 ≤ S := Finset.sum_nonneg fun j _ => abs_nonneg _
  have hFi : ∀ i, |F i| ≤ 2 * a * (1 + S) := fun i => by
    rw [hF]
    simp only [Pi.add_apply, Finset.sum_apply, Pi.smul_apply, Pi.sub_apply, smul_eq_mul]
    have e0 : |F₀ i| ≤ a := (norm_le_pi_norm F₀ i).trans h0
    have e1 : |∑ j, l j * (G j i - F₀ i)| ≤ ∑ j, |l j| * (2 * a) := (Finset.abs_sum_le_sum_abs _ _).trans (Finset.sum_le_sum fun j _ => by
      rw [abs_mul]
      refine mul_le_mul_of_nonneg_left ?_ (abs_nonneg _)
      have e2 : |G j i| ≤ a := (norm_le_pi_norm (G j) i).trans (hG j)
      exact (abs_sub _ _).trans (by linarith))
    rw [← Finset.sum_mul, ← hS] at e1
    refine (abs_add_le _ _).trans ?_
    linarith
  have h1 : |sqV' l F| ≤ ∑ i, 2 * |l i| * (2 * a * (1 + S)) := by
    have e : sqV' l F = ∑ i, 2 * l i * F i := rfl
    rw [e]
    refine (Finset.abs_sum_le_sum_abs _ _).trans (Finset.sum_le_sum fun i _ => ?_)
    rw [abs_mul, abs_mul, abs_two]
    exact mul_le_mul_of_nonneg_left (hFi i) (by positivity)
  rw [← Finset.sum_mul, ← Finset.mul_sum, ← hS] at h1
  have h2 : S ^ 2 ≤ n * ∑ i, l i * l i := by
    have := sq_sum_le_card_mul_sum_sq (s := Finset.univ) (f := fun j => |l j|)
    simp only [Finset.card_univ, Fintype.card_fin, sq_abs] at this
    refine this.trans (le_of_eq ?_)
    simp only [sq]
  have h3 : 2 * S * (2 * a * (1 + S)) ≤ 6 * a * (1 + S ^ 2) := by
    have : 2 * S ≤ 1 + S ^ 2 := by nlinarith [sq_nonneg (S - 1)]
    nlinarith
  have hQ : 0 ≤ ∑ i, l i * l i := Finset.sum_nonneg fun i _ => mul_self_nonneg _
  have h4 : 1 + S ^ 2 ≤ (1 + n) * sqV l := by
    unfold sqV
    have hn : (0 : ℝ) ≤ n := Nat.cast_nonneg n
    nlinarith
  have h5 := mul_le_mul_of_nonneg_left h4 (by positivity : 0 ≤ 6 * a)
  linarith

/-- For every plan the continuous state and costate exist on the whole horizon. -/
theorem extremal_global {P : Cgmres.Problem n m ℝ} (hP : CgSmooth P) (hA : CostateAffine P) (hG : StateGrowth P) (H R : ℝ) (hH : 0 ≤ H) (hR : 0 ≤ R) :
    ∃ R', R ≤ R' ∧ ∀ (N : ℕ) (t D : ℝ) (x : Vec n ℝ) (U : Fin N → Vec m ℝ), 0 < N → 0 ≤ D → D ≤ H → 0 ≤ t → t ≤ R → ‖x‖ ≤ R →
    (∀ i, ‖U i‖ ≤ R) → ∃ y lam : ℝ → Vec n ℝ, y t = x ∧ Extremal P t D U y lam ∧ ∀ s ∈ Icc t (t + D), ‖y s‖ ≤ R' ∧ ‖lam s‖ ≤ R' := by
  obtain ⟨V, V', hV, hV0, hVk, hVB⟩ := hG
  obtain ⟨k, hk, hVk⟩ := hVk R
  obtain ⟨v0, hv0, hv⟩ := bounded_on_ball (continuous_iff_continuousAt.2 fun x => (hV x).continuousAt : Continuous V) R
  obtain ⟨B, hB0, hB⟩ := hVB (Real.exp (k * H) * v0)
  obtain ⟨L, hL, hbL⟩ := bounded_on_ball hP.terminal.continuous (R + H + B)
  obtain ⟨a, ha, hba⟩ := bounded_on_ball hP.costate.continuous (R + H + B + 1)
  have hk2 : 0 ≤ 6 * a * (1 + n) := by positivity
  refine ⟨R + B + Real.sqrt (Real.exp (6 * a * (1 + n) * H) * (1 + n * L ^ 2)), by linarith [Real.sqrt_nonneg (Real.exp (6 * a * (1 + n) * H) * (1 + n * L ^ 2))],
    fun N t D x U hN hD hDH ht htR hx hU => ?_⟩
  have hN' : (0 : ℝ) < N := by exact_mod_cast hN
  have hh : 0 ≤ D / N := by positivity
  have hND : (N : ℝ) * (D / N) = D := by field_simp
  have hc : ∀ i, ‖colAt U i‖ ≤ R := fun i => by
    unfold colAt
    split_ifs with hi
    · exact hU _
    · exact (norm_zero (E := Vec m ℝ)).le.trans hR
  have hVx : V x ≤ v0 := (le_abs_self _).trans (hv x (by rwa [mem_closedBall_zero_iff]))
  obtain ⟨y, yc, y0, yd, yb⟩ := global_forward (φ := fun i q => joint P.stateEq (q.1, q.2, colAt U i)) (fun i => hP.state.comp (by fun_prop)) (B := B) hh ht hk hV hV0 N
    (fun i _ s z => hVk s z _ (hc i)) x (fun z hz => hB z (hz.trans (by
      rw [hND]
      exact mul_le_mul (Real.exp_le_exp.2 (mul_le_mul_of_nonneg_left hDH hk)) hVx (hV0 _) (Real.exp_pos _).le)))
  rw [hND] at yb
  have tB : ∀ s ∈ Icc t (t + D), ‖s‖ ≤ R + H := fun s hs => by
    rw [Real.norm_of_nonneg (by linarith [hs.1])]
    linarith [hs.2]
  have hE : t + D ∈ Icc t (t + D) := ⟨by linarith, le_rfl⟩
  have lB : ‖P.dphidx (t + D) (y (t + D))‖ ≤ L := hbL (t + D, y (t + D)) (by
    rw [mem_closedBall_zero_iff]
    exact max_le ((tB _ hE).trans (by linarith)) ((yb _ hE).trans (by linarith)))
  have hw : ∀ i, ∀ s ∈ Icc t (t + D), ‖(Fin.append (y s) (colAt U i) : Vec (n + m) ℝ)‖ ≤ R + H + B := fun i s hs =>
    norm_append_le ((yb s hs).trans (by linarith)) ((hc i).trans (by linarith))
  obtain ⟨lam, l0, ld, lb⟩ := global_backward (X := ℝ × Vec (n + m) ℝ) (φ := fun _ q => joint P.costateEq (q.1.1, q.2, q.1.2)) (fun i => hP.costate.comp (by fun_prop))
    (c := fun i s => (s, Fin.append (y s) (colAt U i)))
    (fun i => by
      refine continuous_id.prodMk (continuous_pi fun k => ?_)
      refine Fin.addCases (fun k => ?_) (fun k => ?_) k
      · simp only [Fin.append_left]
        exact (continuous_apply k).comp yc
      · simp only [Fin.append_right]
        exact continuous_const)
    (t := t) (ρ := R + H + B) (B := Real.sqrt (Real.exp (6 * a * (1 + n) * H) * (1 + n * L ^ 2))) hh hk2 sqV_hasFDerivAt sqV_nonneg N
    (fun i _ s hs => by
      rw [hND] at hs
      exact max_le ((tB s hs).trans (by linarith)) (hw i s hs))
    (fun i _ s hs l => by
      rw [hND] at hs
      have hin : ∀ l' : Vec n ℝ, ‖l'‖ ≤ 1 → ‖P.costateEq s l' (Fin.append (y s) (colAt U i))‖ ≤ a := fun l' hl' => hba (s, l', Fin.append (y s) (colAt U i)) (by
        rw [mem_closedBall_zero_iff]
        exact max_le ((tB s hs).trans (by linarith)) (max_le (hl'.trans (by linarith)) ((hw i s hs).trans (by linarith))))
      have := sqV_growth (l := l) ha (hin 0 (by simp)) (fun j => hin (Pi.single j 1) (by
        refine (pi_norm_le_iff_of_nonneg zero_le_one).2 fun i => ?_
        rw [Pi.single_apply]
        split_ifs <;> simp)) (hA s l (Fin.append (y s) (colAt U i)))
      exact (abs_le.1 this).1)
    (P.dphidx (t + D) (y (t + D)))
    (fun z hz => (norm_le_sqV z).trans (Real.sqrt_le_sqrt (hz.trans (by
      rw [hND]
      exact mul_le_mul (Real.exp_le_exp.2 (mul_le_mul_of_nonneg_left hDH hk2)) (sqV_le lB) (sqV_nonneg _) (Real.exp_pos _).le))))
  rw [hND] at l0 lb
  refine ⟨y, lam, y0, ⟨yd, ld, l0⟩, fun s hs => ⟨(yb s hs).trans ?_, (lb s hs).trans (by linarith)⟩⟩
  linarith [Real.sqrt_nonneg (Real.exp (6 * a * (1 + n) * H) * (1 + n * L ^ 2))]

/-- The claim of C148 about a simulation without assumption on the continuous trajectories: with at least `N₀` stages `run` returns, and whenever the defects of the rounds before `k` are at most `ε`
and time, state and plan of round `k` are bounded by `R`, the exact continuous state and costate of the plan exist and satisfy the first-order condition up to
`q^k err_0 + dt ε (1 + q + … + q^(k-1)) + C / N`. -/
def ExtremalRun (P : Cgmres.Problem n m ℝ) (ode : Ode ℝ) (H a R : ℝ) : Prop :=
  ∃ (C : ℝ) (N₀ : ℕ), ∀ (L : Gmres.Dense ℝ) (simOde : Ode ℝ) (cfg : Cgmres.Config ℝ), cfg.steadyHorizon = H → cfg.increaseRatio = a →
    (N₀ : ℤ) ≤ cfg.divideNum → 0 < cfg.divideNum → 0 < cfg.dt → cfg.dumpStep ≠ 0 → 0 ≤ cfg.kMax → cfg.delta ≠ 0 →
    ∃ (T : Trajectory L P ode simOde cfg cfg.divideNum.toNat) (s : _), run L P ode simOde cfg = .ok s ∧
      s.dump = ((List.range s.i).filter fun j : ℕ => cfg.dumpStep ∣ (j : ℤ)).map T.line ∧
      ∀ (k : ℕ) (ε : ℝ), (∀ j < k, T.defect j ≤ ε) →
        let t := k * cfg.dt
        let D := horizonDuration cfg t
        let h := D / cfg.divideNum.toNat
        let q := |1 - cfg.zeta * cfg.dt|
        t ≤ R → ‖T.x k‖ ≤ R → (∀ i, ‖(T.mem k).uList i‖ ≤ R) → (∃ y lam : ℝ → Vec n ℝ, y t = T.x k ∧ Extremal P t D (T.mem k).uList y lam) ∧
        ∀ y lam : ℝ → Vec n ℝ, y t = T.x k → Extremal P t D (T.mem k).uList y lam → ∀ i : Fin cfg.divideNum.toNat,
          ‖P.dhdu (t + (i : ℕ) * h) (y (t + (i : ℕ) * h)) ((T.mem k).uList i) (lam (t + (i : ℕ) * h))‖ ≤
            q ^ k * (T.line 0).err + cfg.dt * ε * ∑ j ∈ range k, q ^ j + C / cfg.divideNum.toNat

theorem extremalRun_of_growth {P : Cgmres.Problem n m ℝ} (hP : CgSmooth P) (hA : CostateAffine P) (hG : StateGrowth P) {ode : Ode ℝ} (ho : ode.FirstOrder) {H a : ℝ} (hH : 0 ≤ H)
    (ha : 0 ≤ a) (R : ℝ) (hR : 0 ≤ R) : ExtremalRun P ode H a R := by
  obtain ⟨R', hRR, hex⟩ := extremal_global hP hA hG H R hH hR
  obtain ⟨C, N₀, hrun⟩ := hP.run ho hH ha R'
  refine ⟨C, N₀, fun L simOde cfg h1 h2 h3 h4 h5 h6 h7 h8 => ?_⟩
  obtain ⟨T, s, hs, hd, hk⟩ := hrun L simOde cfg h1 h2 h3 h4 h5 h6 h7 h8
  refine ⟨T, s, hs, hd, fun k ε hε => ?_⟩
  intro t D h q ht hx hU
  have ht0 : 0 ≤ t := by positivity
  have he : Real.exp (-cfg.increaseRatio * t) ≤ 1 := Real.exp_le_one_iff.2 (by rw [h2]; nlinarith)
  have he0 := Real.exp_pos (-cfg.increaseRatio * t)
  have hD : D = H * (1 - Real.exp (-cfg.increaseRatio * t)) := by rw [← h1]; rfl
  have hD0 : 0 ≤ D := by rw [hD]; nlinarith
  have hN : 0 < cfg.divideNum.toNat := by omega
  obtain ⟨y, lam, y0, hy, hb⟩ := hex cfg.divideNum.toNat t D (T.x k) (T.mem k).uList hN hD0 (by rw [hD]; nlinarith) ht0 ht hx hU
  refine ⟨⟨y, lam, y0, hy⟩, fun z mu z0 hz => hk k ε z mu hε (ht.trans hRR) (fun i => (hU i).trans hRR) z0 (fun s hs => ?_) hz⟩
  obtain ⟨e1, e2⟩ := C148_extremal_unique P hP.state hP.costate hN hD0 hy hz (y0.trans z0.symm)
  rw [← e1 hs, ← e2 hs]
  exact hb s hs

section CartPole

variable {p : CgCartPole ℝ} (h1 : 0 < p.m1) (h2 : 0 < p.m2) (hl : p.l ≠ 0) (hr : ∀ i, ContDiff ℝ 1 fun t => p.ref t i)

theorem cgCartPole_affine (t : ℝ) (l x : Vec 4 ℝ) (f : ℝ) :
    p.costateEq t l x f = p.costateEq t 0 x f + ∑ j, l j • (p.costateEq t (Pi.single j 1) x f - p.costateEq t 0 x f) := by
  ext i
  simp only [CgCartPole.costateEq, div_eq_mul_inv]
  generalize (Trig.sin (x 1) : ℝ) = s
  generalize (Trig.cos (x 1) : ℝ) = c
  generalize (p.l * p.l * ((p.m1 + p.m2 * (s * s)) * (p.m1 + p.m2 * (s * s))))⁻¹ = d1
  generalize ((p.m1 + p.m2 * (s * s)) * (p.m1 + p.m2 * (s * s)))⁻¹ = d2
  generalize (p.l * (p.m1 + p.m2 * (s * s)))⁻¹ = d3
  generalize (p.m1 + p.m2 * (s * s))⁻¹ = d4
  fin_cases i <;> simp [Fin.sum_univ_four] <;> ring

include h1 h2 hl

theorem cgCartPole_growth : StateGrowth p.problem :=
  ⟨cpV p, cpV' p, cpV_hasFDerivAt p, fun x => zero_le_one.trans (cpV_one_le h1 h2 x), fun R => by
    obtain ⟨k, hk, h⟩ := cpV_growth h1 h2 hl (R := R)
    exact ⟨k, hk, fun s x u hu => h x (u 0) ((norm_le_pi_norm u 0).trans hu)⟩, cpV_bound h1 h2 hl⟩

theorem cgCartPole_bounded_growth : StateGrowth p.bounded :=
  ⟨cpV p, cpV' p, cpV_hasFDerivAt p, fun x => zero_le_one.trans (cpV_one_le h1 h2 x), fun R => by
    obtain ⟨k, hk, h⟩ := cpV_growth h1 h2 hl (R := R)
    exact ⟨k, hk, fun s x u hu => h x (u 0) ((norm_le_pi_norm u 0).trans hu)⟩, cpV_bound h1 h2 hl⟩

include hr

/-- **C148** for the cart-pole of C/GMRES without input bound, without assumption on the continuous trajectories. -/
theorem C148_cartpole_run {ode : Ode ℝ} (ho : ode.FirstOrder) {H a : ℝ} (hH : 0 ≤ H) (ha : 0 ≤ a) (R : ℝ) (hR : 0 ≤ R) : ExtremalRun p.problem ode H a R :=
  extremalRun_of_growth (cgCartPole_smooth h1 h2.le hl hr) (fun s l _ => cgCartPole_affine s l _ _) (cgCartPole_growth h1 h2 hl) ho hH ha R hR

/-- **C148** for the cart-pole of C/GMRES with input bound, without assumption on the continuous trajectories. -/
theorem C148_cartpole_bounded_run {ode : Ode ℝ} (ho : ode.FirstOrder) {H a : ℝ} (hH : 0 ≤ H) (ha : 0 ≤ a) (R : ℝ) (hR : 0 ≤ R) : ExtremalRun p.bounded ode H a R :=
  extremalRun_of_growth (cgCartPole_bounded_smooth h1 h2.le hl hr) (fun s l _ => cgCartPole_affine s l _ _) (cgCartPole_bounded_growth h1 h2 hl) ho hH ha R hR

end CartPole

/-- The parameters of the tests. -/
example : ExtremalRun (CgCartPole.default : CgCartPole ℝ).problem eulerOde 1 (1 / 2) 100 ∧ ExtremalRun (CgCartPole.default : CgCartPole ℝ).bounded rkOde 1 (1 / 2) 100 := by
  refine ⟨C148_cartpole_run ?_ ?_ ?_ (fun i => contDiff_const) euler_firstOrder (by norm_num) (by norm_num) 100 (by norm_num),
    C148_cartpole_bounded_run ?_ ?_ ?_ (fun i => contDiff_const) rk_firstOrder (by norm_num) (by norm_num) 100 (by norm_num)⟩ <;> norm_num [CgCartPole.default]

end Nmpc.Problems
