import Verif.Problems.Agree
import Verif.DDP.LimitCertProps
import Verif.FMPC.SlaterProps

/-!
# DDP with input limits and FMPC with the same limits as inequalities (helper lemmas for C141)
-/

set_option linter.unusedSectionVars false

namespace Nmpc.Agree

open Matrix Finset
open DDP (timeAt LQProblem IsTrajectory Stretch)

/-! ## Norms -/

theorem norm_le_sqrt {k : ℕ} (v : Vec k ℝ) : ‖v‖ ≤ Real.sqrt (v ⬝ᵥ v) := by
  refine FMPC.norm_le_of_abs (Real.sqrt_nonneg _) fun j => Real.abs_le_sqrt ?_
  rw [pow_two]
  exact single_le_sum (f := fun j => v j * v j) (fun j _ => mul_self_nonneg _) (mem_univ j)

theorem dot_self_le {k : ℕ} {v : Vec k ℝ} {c : ℝ} (h : ‖v‖ ≤ c) : v ⬝ᵥ v ≤ k * c ^ 2 := by
  have : v ⬝ᵥ v ≤ ∑ _j : Fin k, c ^ 2 := sum_le_sum fun j _ => by
    have h1 := (norm_le_pi_norm v j).trans h
    rw [Real.norm_eq_abs] at h1
    rw [← pow_two]
    exact sq_le_sq' (by linarith [(abs_le.1 h1).1]) (abs_le.1 h1).2
  rwa [sum_const, card_univ, Fintype.card_fin, nsmul_eq_mul] at this

theorem sqrt_le_norm {k : ℕ} {v : Vec k ℝ} {c : ℝ} (h : ‖v‖ ≤ c) : Real.sqrt (v ⬝ᵥ v) ≤ k * c := by
  have hc : 0 ≤ c := (norm_nonneg _).trans h
  refine Real.sqrt_le_iff.2 ⟨by positivity, (dot_self_le h).trans ?_⟩
  rw [mul_pow]
  refine mul_le_mul_of_nonneg_right ?_ (sq_nonneg _)
  rcases Nat.eq_zero_or_pos k with hk | hk
  · subst hk; simp
  · have : (1 : ℝ) ≤ k := by exact_mod_cast hk
    nlinarith

theorem Stretch.mono {a b : ℕ} {A : Mat a b ℝ} {c c' : ℝ} (h : Stretch A c) (hc : c ≤ c') : Stretch A c' :=
  fun v => (h v).trans (mul_le_mul_of_nonneg_right hc (Real.sqrt_nonneg _))

theorem stretch_exists {a b : ℕ} (A : Mat a b ℝ) : ∃ c, 0 ≤ c ∧ Stretch A c := by
  obtain ⟨c, hc, h⟩ := FMPC.mulVec_norm_le A
  refine ⟨a * c, by positivity, fun v => ?_⟩
  refine (sqrt_le_norm (h v)).trans ?_
  rw [mul_assoc]
  exact mul_le_mul_of_nonneg_left (mul_le_mul_of_nonneg_left (norm_le_sqrt v) hc) (Nat.cast_nonneg _)

/-! ## The problem handed to FMPC -/

/-- The problem given to FMPC: as `fmpcOf`, with the limits of the inputs as inequalities `u - upper ≤ 0`, `lower - u ≤ 0`. -/
noncomputable def fmpcBox {n : ℕ} {md : ℝ → ℕ} (p : LQProblem n md) (lim : (t : ℝ) → Vec (md t) ℝ × Vec (md t) ℝ) (dt : ℝ) :
    FMPC.Callbacks n md (fun t => md t + md t) where
  stateEq t x u := p.A t *ᵥ x + p.B t *ᵥ u + p.c t
  runningCost t x u := (1 / 2 * (x ⬝ᵥ p.Q t *ᵥ x) + x ⬝ᵥ p.M t *ᵥ u + 1 / 2 * (u ⬝ᵥ p.R t *ᵥ u) + p.q t ⬝ᵥ x + p.r t ⬝ᵥ u + p.e t) / dt
  terminalCost t x := 1 / 2 * (x ⬝ᵥ p.Qf t *ᵥ x) + p.qf t ⬝ᵥ x + p.ef t
  ineqConst t _ u := Fin.append (u - (lim t).2) ((lim t).1 - u)
  stateEqDeriv t _ _ _ := { Fx := p.A t, Fu := p.B t }
  ineqConstDeriv t _ _ _ := { C := 0, D := fun i j => Fin.append (fun k => (1 : Mat (md t) (md t) ℝ) k j) (fun k => (-1 : Mat (md t) (md t) ℝ) k j) i }
  runningCostDeriv t x u _ :=
    { Lx := dt⁻¹ • (p.Q t *ᵥ x + p.M t *ᵥ u + p.q t), Lu := dt⁻¹ • ((p.M t)ᵀ *ᵥ x + p.R t *ᵥ u + p.r t)
      Lxx := dt⁻¹ • p.Q t, Luu := dt⁻¹ • p.R t, Lxu := dt⁻¹ • p.M t }
  terminalCostDeriv t x _ := { Vx := p.Qf t *ᵥ x + p.qf t, Vxx := p.Qf t }

variable {n : ℕ} {md : ℝ → ℕ} {p : LQProblem n md} {lim : (t : ℝ) → Vec (md t) ℝ × Vec (md t) ℝ} {dt t0 : ℝ} {x0 : Vec n ℝ} {N : ℕ}

theorem append_mulVec_left {a b : ℕ} (A B : Mat a b ℝ) (v : Vec b ℝ) (i : Fin a) :
    ((fun i j => Fin.append (fun k => A k j) (fun k => B k j) i : Mat (a + a) b ℝ) *ᵥ v) (Fin.castAdd a i) = (A *ᵥ v) i := by
  simp only [mulVec, dotProduct, Fin.append_left]

theorem append_mulVec_right {a b : ℕ} (A B : Mat a b ℝ) (v : Vec b ℝ) (i : Fin a) :
    ((fun i j => Fin.append (fun k => A k j) (fun k => B k j) i : Mat (a + a) b ℝ) *ᵥ v) (Fin.natAdd a i) = (B *ᵥ v) i := by
  simp only [mulVec, dotProduct, Fin.append_right]

theorem fmpcBox_convex (hp : p.Convex) (hdt : 0 < dt) : FMPC.ConvexProblem (fmpcBox p lim dt) where
  dyn t x u x' u' b := (fmpcOf_convex hp hdt).dyn t x u x' u' b
  ineq t x u x' u' b j := by
    refine Fin.addCases (fun i => ?_) (fun i => ?_) j
    · simp only [fmpcBox]
      rw [append_mulVec_left, Fin.append_left, Fin.append_left, zero_mulVec, one_mulVec]
      simp only [Pi.sub_apply, Pi.zero_apply]
      linarith
    · simp only [fmpcBox]
      rw [append_mulVec_right, Fin.append_right, Fin.append_right, zero_mulVec, neg_mulVec, one_mulVec]
      simp only [Pi.sub_apply, Pi.zero_apply, Pi.neg_apply]
      linarith
  cost t x u x' u' b := (fmpcOf_convex hp hdt).cost t x u x' u' b
  term t x x' b := (fmpcOf_convex hp hdt).term t x x' b

theorem fmpcBox_strong {μ : ℝ} (hp : p.StronglyConvex μ) (hdt : 0 < dt) : FMPC.StrongCost (fmpcBox p lim dt) (μ / dt) := by
  intro t x u x' u' b
  simp only [fmpcBox]
  rw [smul_dotProduct, smul_dotProduct, smul_eq_mul, smul_eq_mul, div_eq_inv_mul (_ + _) dt,
    div_eq_inv_mul (_ + _) dt, ← mul_add, ← mul_add, show μ / dt / 2 * ((u' - u) ⬝ᵥ (u' - u)) = dt⁻¹ * (μ / 2 * ((u' - u) ⬝ᵥ (u' - u))) by
      field_simp, ← mul_add]
  refine mul_le_mul_of_nonneg_left ?_ (inv_nonneg.2 hdt.le)
  have h1 := quad_gap (p.symmQ t) x x'
  have h2 := quad_gap (p.symmR t) u u'
  have h3 := hp.stage t (x' - x) (u' - u)
  have h4 : x' ⬝ᵥ p.M t *ᵥ u' = x ⬝ᵥ p.M t *ᵥ u + (p.M t *ᵥ u) ⬝ᵥ (x' - x) + ((p.M t)ᵀ *ᵥ x) ⬝ᵥ (u' - u) +
      (x' - x) ⬝ᵥ p.M t *ᵥ (u' - u) := by
    rw [mulVec_transpose, ← dotProduct_mulVec, dotProduct_comm (p.M t *ᵥ u)]
    simp only [mulVec_sub, dotProduct_sub, sub_dotProduct]
    ring
  simp only [add_dotProduct]
  have h5 : p.q t ⬝ᵥ x' = p.q t ⬝ᵥ x + p.q t ⬝ᵥ (x' - x) := by rw [dotProduct_sub]; ring
  have h6 : p.r t ⬝ᵥ u' = p.r t ⬝ᵥ u + p.r t ⬝ᵥ (u' - u) := by rw [dotProduct_sub]; ring
  rw [h1, h2, h4, h5, h6]
  linarith

theorem fmpcBox_run_contDiff (t : ℝ) : ContDiff ℝ 1 fun z : Vec n ℝ × Vec (md t) ℝ => (fmpcBox p lim dt).runningCost t z.1 z.2 := by
  simp only [fmpcBox, mulVec, dotProduct]
  fun_prop

theorem fmpcBox_term_contDiff (t : ℝ) : ContDiff ℝ 1 fun x : Vec n ℝ => (fmpcBox p lim dt).terminalCost t x := by
  simp only [fmpcBox, mulVec, dotProduct]
  fun_prop

theorem fmpcBox_locLip (t0 : ℝ) (N : ℕ) : FMPC.LocLip (fmpcBox p lim dt) t0 dt N := by
  refine FMPC.LocLip.of_contDiff (fun i _ => fmpcBox_run_contDiff _) (fun i _ => ?_) (fmpcBox_term_contDiff _)
  refine contDiff_pi.2 fun j => ?_
  simp only [fmpcBox]
  refine Fin.addCases (fun i => ?_) (fun i => ?_) j
  · simp only [Fin.append_left, Pi.sub_apply]
    fun_prop
  · simp only [Fin.append_right, Pi.sub_apply]
    fun_prop

theorem fmpcBox_ineq (t : ℝ) (x : Vec n ℝ) (u : Vec (md t) ℝ) (c : ℝ) :
    (∀ j, (fmpcBox p lim dt).ineqConst t x u j ≤ c) ↔ ∀ i, (lim t).1 i - c ≤ u i ∧ u i ≤ (lim t).2 i + c := by
  constructor
  · intro h i
    have h1 := h (Fin.castAdd _ i)
    have h2 := h (Fin.natAdd _ i)
    simp only [fmpcBox, Fin.append_left, Fin.append_right, Pi.sub_apply] at h1 h2
    exact ⟨by linarith, by linarith⟩
  · intro h j
    refine Fin.addCases (fun i => ?_) (fun i => ?_) j
    · simp only [fmpcBox, Fin.append_left, Pi.sub_apply]
      linarith [(h i).2]
    · simp only [fmpcBox, Fin.append_right, Pi.sub_apply]
      linarith [(h i).1]

/-- The costs of the two models are the same for the same inputs. -/
theorem box_cost (hdt : 0 < dt) {c : DDP.Ctrl n (fun i => md (timeAt t0 dt i)) ℝ}
    (h : DDP.Consistent N (DDP.stagesOf p.callbacks none t0 dt N) x0 c) :
    (∀ i ≤ N, c.x i = FMPC.rollOut (fmpcBox p lim dt) t0 dt x0 c.u i) ∧
    FMPC.trajCost (fmpcBox p lim dt) t0 dt N (FMPC.rollOut (fmpcBox p lim dt) t0 dt x0 c.u) c.u = (c.out N).costs.sum := by
  have hx : ∀ i ≤ N, c.x i = FMPC.rollOut (fmpcBox p lim dt) t0 dt x0 c.u i := by
    intro i
    induction i with
    | zero => intro _; exact h.start
    | succ i ih =>
      intro hi
      rw [h.step i hi]
      show p.callbacks.stateEq _ _ _ = (fmpcBox p lim dt).stateEq _ _ _
      rw [ih (by omega)]
      rfl
  refine ⟨hx, ?_⟩
  rw [← FMPC.trajCost_congr hx, consistent_cost h]
  unfold FMPC.trajCost
  congr 1
  refine sum_congr rfl fun i _ => ?_
  exact mul_div_cancel₀ _ hdt.ne'

/-! ## General lemmas on convex problems -/

section General
variable {pd : ℝ → ℕ} {P : FMPC.Callbacks n md pd}

/-- The trajectory is a Lipschitz function of the inputs. -/
theorem roll_lip (hP : FMPC.ConvexProblem P) (N : ℕ) : ∃ K, 0 ≤ K ∧ ∀ i ≤ N,
    ∀ (x0 : Vec n ℝ) (u w : (i : ℕ) → Vec (md (timeAt t0 dt i)) ℝ) (δ : ℝ), 0 ≤ δ → (∀ i < N, ‖u i - w i‖ ≤ δ) →
    ‖FMPC.rollOut P t0 dt x0 u i - FMPC.rollOut P t0 dt x0 w i‖ ≤ K * δ := by
  have key : ∀ i, ∃ K, 0 ≤ K ∧ (i ≤ N → ∀ (x0 : Vec n ℝ) (u w : (i : ℕ) → Vec (md (timeAt t0 dt i)) ℝ) (δ : ℝ), 0 ≤ δ → (∀ i < N, ‖u i - w i‖ ≤ δ) →
      ‖FMPC.rollOut P t0 dt x0 u i - FMPC.rollOut P t0 dt x0 w i‖ ≤ K * δ) := by
    intro i
    induction i with
    | zero => exact ⟨0, le_rfl, fun _ x0 u w δ _ _ => by simp [FMPC.rollOut]⟩
    | succ i ih =>
      obtain ⟨K, hK, hi⟩ := ih
      obtain ⟨A, B, hA⟩ := hP.affine (timeAt t0 dt i)
      obtain ⟨a, ha, haA⟩ := FMPC.mulVec_norm_le A
      obtain ⟨b, hb, hbB⟩ := FMPC.mulVec_norm_le B
      refine ⟨a * K + b, by positivity, fun hiN x0 u w δ h0 h => ?_⟩
      simp only [FMPC.rollOut]
      rw [hA]
      have h1 := mul_le_mul_of_nonneg_left (hi (by omega) x0 u w δ h0 h) ha
      have h2 := mul_le_mul_of_nonneg_left (h i hiN) hb
      have h3 := norm_add_le (A *ᵥ (FMPC.rollOut P t0 dt x0 u i - FMPC.rollOut P t0 dt x0 w i)) (B *ᵥ (u i - w i))
      have h4 := haA (FMPC.rollOut P t0 dt x0 u i - FMPC.rollOut P t0 dt x0 w i)
      have h5 := hbB (u i - w i)
      linarith
  obtain ⟨K, hK, h⟩ := FMPC.uniform_bound (Q := fun i K => i ≤ N → ∀ (x0 : Vec n ℝ) (u w : (i : ℕ) → Vec (md (timeAt t0 dt i)) ℝ) (δ : ℝ), 0 ≤ δ →
      (∀ i < N, ‖u i - w i‖ ≤ δ) → ‖FMPC.rollOut P t0 dt x0 u i - FMPC.rollOut P t0 dt x0 w i‖ ≤ K * δ)
    (fun i a b hab h hi x0 u w δ h0 hd => (h hi x0 u w δ h0 hd).trans (mul_le_mul_of_nonneg_right hab h0)) key N
  exact ⟨K, hK, fun i hi => h i hi hi⟩

/-- The total cost is a Lipschitz function of the inputs on bounded sets. -/
theorem cost_lip_ball (hP : FMPC.ConvexProblem P) (hdt : 0 ≤ dt) {r0 : ℝ} (hr0 : 0 ≤ r0)
    (h1 : ∀ t, ContDiff ℝ 1 fun z : Vec n ℝ × Vec (md t) ℝ => P.runningCost t z.1 z.2) (h2 : ∀ t, ContDiff ℝ 1 fun x => P.terminalCost t x)
    {R : ℝ} (hR : 0 ≤ R) : ∃ K, 0 ≤ K ∧ ∀ (x0 : Vec n ℝ) (u w : (i : ℕ) → Vec (md (timeAt t0 dt i)) ℝ) (δ : ℝ), ‖x0‖ ≤ r0 → 0 ≤ δ → (∀ i < N, ‖u i‖ ≤ R) →
      (∀ i < N, ‖w i‖ ≤ R) → (∀ i < N, ‖u i - w i‖ ≤ δ) →
      FMPC.trajCost P t0 dt N (FMPC.rollOut P t0 dt x0 u) u ≤ FMPC.trajCost P t0 dt N (FMPC.rollOut P t0 dt x0 w) w + K * δ := by
  obtain ⟨ρ, hρ, hroll⟩ := FMPC.roll_bounded_ball (t0 := t0) (dt := dt) hP N hr0 hR
  obtain ⟨K, hK, hlip⟩ := roll_lip (t0 := t0) (dt := dt) hP N
  have key : ∀ i, ∃ Λ, 0 ≤ Λ ∧ (i < N → ∀ (x x' : Vec n ℝ) (u u' : Vec (md (timeAt t0 dt i)) ℝ), ‖x‖ ≤ ρ + R → ‖x'‖ ≤ ρ + R → ‖u‖ ≤ ρ + R →
      ‖u'‖ ≤ ρ + R → P.runningCost (timeAt t0 dt i) x' u' - P.runningCost (timeAt t0 dt i) x u ≤ Λ * (‖x' - x‖ + ‖u' - u‖)) := by
    intro i
    obtain ⟨Λ, hΛ, hl⟩ := Cgmres.OdeOrder.lip_ball (h1 (timeAt t0 dt i)) (ρ + R)
    refine ⟨Λ, hΛ, fun _ x x' u u' a b c d => ?_⟩
    have := hl (x, u) (x', u') (by rw [Prod.norm_mk]; exact max_le a c) (by rw [Prod.norm_mk]; exact max_le b d)
    rw [Prod.mk_sub_mk, Prod.norm_mk, Real.norm_eq_abs] at this
    refine (le_abs_self _).trans (this.trans (mul_le_mul_of_nonneg_left ?_ hΛ))
    exact max_le (le_add_of_nonneg_right (norm_nonneg _)) (le_add_of_nonneg_left (norm_nonneg _))
  obtain ⟨Λ, hΛ, hrun⟩ := FMPC.uniform_bound (Q := fun i Λ => i < N → ∀ (x x' : Vec n ℝ) (u u' : Vec (md (timeAt t0 dt i)) ℝ), ‖x‖ ≤ ρ + R →
      ‖x'‖ ≤ ρ + R → ‖u‖ ≤ ρ + R → ‖u'‖ ≤ ρ + R →
      P.runningCost (timeAt t0 dt i) x' u' - P.runningCost (timeAt t0 dt i) x u ≤ Λ * (‖x' - x‖ + ‖u' - u‖))
    (fun i a b hab h hi x x' u u' a1 a2 a3 a4 => (h hi x x' u u' a1 a2 a3 a4).trans (mul_le_mul_of_nonneg_right hab (by positivity))) key N
  obtain ⟨Λ', hΛ', hterm⟩ := Cgmres.OdeOrder.lip_ball (h2 (timeAt t0 dt N)) (ρ + R)
  refine ⟨N * (dt * (Λ * (K + 1))) + Λ' * K, by positivity, fun x0 u w δ hx0 h0 hu hw hd => ?_⟩
  have a : ∑ i ∈ range N, (dt * P.runningCost (timeAt t0 dt i) (FMPC.rollOut P t0 dt x0 u i) (u i) -
      dt * P.runningCost (timeAt t0 dt i) (FMPC.rollOut P t0 dt x0 w i) (w i)) ≤ ∑ _i ∈ range N, dt * (Λ * (K + 1)) * δ := by
    refine sum_le_sum fun i hi => ?_
    have hi := mem_range.1 hi
    have b1 := hrun i hi.le hi (FMPC.rollOut P t0 dt x0 w i) (FMPC.rollOut P t0 dt x0 u i) (w i) (u i)
      (by linarith [hroll i hi.le x0 w hx0 hw]) (by linarith [hroll i hi.le x0 u hx0 hu]) (by linarith [hw i hi]) (by linarith [hu i hi])
    have b2 := hlip i hi.le x0 u w δ h0 hd
    have b3 := hd i hi
    have b4 : Λ * (‖FMPC.rollOut P t0 dt x0 u i - FMPC.rollOut P t0 dt x0 w i‖ + ‖u i - w i‖) ≤ Λ * (K * δ + δ) :=
      mul_le_mul_of_nonneg_left (by linarith) hΛ
    rw [← mul_sub]
    have := mul_le_mul_of_nonneg_left (b1.trans b4) hdt
    linarith
  rw [sum_const, card_range, nsmul_eq_mul, sum_sub_distrib] at a
  have b := hterm (FMPC.rollOut P t0 dt x0 w N) (FMPC.rollOut P t0 dt x0 u N) (by linarith [hroll N le_rfl x0 w hx0 hw]) (by linarith [hroll N le_rfl x0 u hx0 hu])
  have b2 := mul_le_mul_of_nonneg_left (hlip N le_rfl x0 u w δ h0 hd) hΛ'
  have b3 := (le_abs_self (P.terminalCost (timeAt t0 dt N) (FMPC.rollOut P t0 dt x0 u N) -
    P.terminalCost (timeAt t0 dt N) (FMPC.rollOut P t0 dt x0 w N))).trans (b.trans b2)
  unfold FMPC.trajCost
  linarith

/-- Two nearly optimal input sequences of a strongly convex problem are close. -/
theorem near_min_dist (hP : FMPC.ConvexProblem P) {μ : ℝ} (hμ : FMPC.StrongCost P μ) (hdt : 0 ≤ dt)
    {a b : (i : ℕ) → Vec (md (timeAt t0 dt i)) ℝ} {ea eb : ℝ}
    (ha : ∀ i < N, ∀ j, P.ineqConst (timeAt t0 dt i) (FMPC.rollOut P t0 dt x0 a i) (a i) j ≤ 0)
    (hb : ∀ i < N, ∀ j, P.ineqConst (timeAt t0 dt i) (FMPC.rollOut P t0 dt x0 b i) (b i) j ≤ 0)
    (hea : ∀ w : (i : ℕ) → Vec (md (timeAt t0 dt i)) ℝ,
      (∀ i < N, ∀ j, P.ineqConst (timeAt t0 dt i) (FMPC.rollOut P t0 dt x0 w i) (w i) j ≤ 0) →
      FMPC.trajCost P t0 dt N (FMPC.rollOut P t0 dt x0 a) a ≤ FMPC.trajCost P t0 dt N (FMPC.rollOut P t0 dt x0 w) w + ea)
    (heb : ∀ w : (i : ℕ) → Vec (md (timeAt t0 dt i)) ℝ,
      (∀ i < N, ∀ j, P.ineqConst (timeAt t0 dt i) (FMPC.rollOut P t0 dt x0 w i) (w i) j ≤ 0) →
      FMPC.trajCost P t0 dt N (FMPC.rollOut P t0 dt x0 b) b ≤ FMPC.trajCost P t0 dt N (FMPC.rollOut P t0 dt x0 w) w + eb) :
    dt * μ / 4 * ∑ i ∈ range N, (b i - a i) ⬝ᵥ (b i - a i) ≤ ea + eb := by
  have h1 := FMPC.cost_mix (N := N) (x0 := x0) hP hμ hdt (θ := 1 / 2) (by norm_num) (by norm_num) a b
  have hf : ∀ i < N, ∀ j, P.ineqConst (timeAt t0 dt i) (FMPC.rollOut P t0 dt x0 (fun i => a i + (1 / 2 : ℝ) • (b i - a i)) i)
      (a i + (1 / 2 : ℝ) • (b i - a i)) j ≤ 0 := by
    intro i hi j
    rw [FMPC.roll_mix hP]
    refine (FMPC.ineq_mix hP (by norm_num) (by norm_num) _ _ _ _ j).trans ?_
    linarith [ha i hi j, hb i hi j]
  have h2 := hea _ hf
  have h3 := heb _ hf
  linarith

end General
end Nmpc.Agree
