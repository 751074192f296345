import Verif.FMPC.Regulator

/-!
# FMPC: near-optimal inputs depend on the initial state in a Lipschitz way (helper lemmas for C146)
-/

set_option linter.unusedSectionVars false

namespace Nmpc.FMPC

open DDP (FDeriv LDeriv VDeriv timeAt)
open Matrix Finset

section Mixed
variable {E : Type*} [NormedAddCommGroup E] [NormedSpace ℝ E] [FiniteDimensional ℝ E]

/-- Mixed differences of a twice continuously differentiable function on a ball. -/
theorem mixed_ball {f : E → ℝ} (hf : ContDiff ℝ 2 f) (r : ℝ) : ∃ M, 0 ≤ M ∧ ∀ p d e : E, ‖p‖ ≤ r → ‖p + d‖ ≤ r → ‖p + e‖ ≤ r →
    ‖p + d + e‖ ≤ r → |f (p + d + e) - f (p + d) - (f (p + e) - f p)| ≤ M * ‖d‖ * ‖e‖ := by
  have hf1 : ContDiff ℝ 1 (fderiv ℝ f) := hf.fderiv_right (by norm_num)
  obtain ⟨M, hM, hlip⟩ := Cgmres.OdeOrder.lip_ball hf1 r
  refine ⟨M, hM, fun p d e h1 h2 h3 h4 => ?_⟩
  have hd : Differentiable ℝ f := hf.differentiable (by norm_num)
  have hseg : ∀ q : E, ‖q‖ ≤ r → ‖q + e‖ ≤ r → ∀ s ∈ Set.Icc (0 : ℝ) 1, ‖q + s • e‖ ≤ r := by
    intro q ha hb s hs
    have : q + s • e = (1 - s) • q + s • (q + e) := by module
    rw [this]
    refine (norm_add_le _ _).trans ?_
    rw [norm_smul, norm_smul, Real.norm_of_nonneg (sub_nonneg.2 hs.2), Real.norm_of_nonneg hs.1]
    nlinarith [mul_le_mul_of_nonneg_left ha (sub_nonneg.2 hs.2), mul_le_mul_of_nonneg_left hb hs.1]
  have hder : ∀ (q : E) (s : ℝ), HasDerivAt (fun s : ℝ => f (q + s • e)) (fderiv ℝ f (q + s • e) e) s := by
    intro q s
    have a : HasDerivAt (fun s : ℝ => q + s • e) e s := by
      simpa using ((hasDerivAt_id s).smul_const e).const_add q
    exact (hd (q + s • e)).hasFDerivAt.comp_hasDerivAt s a
  have key := norm_image_sub_le_of_norm_deriv_le_segment_01' (f := fun s : ℝ => f (p + d + s • e) - f (p + s • e))
    (f' := fun s => fderiv ℝ f (p + d + s • e) e - fderiv ℝ f (p + s • e) e) (C := M * ‖d‖ * ‖e‖)
    (fun s _ => ((hder (p + d) s).sub (hder p s)).hasDerivWithinAt) (fun s hs => by
      rw [← _root_.sub_apply]
      refine (ContinuousLinearMap.le_opNorm _ _).trans (mul_le_mul_of_nonneg_right ?_ (norm_nonneg _))
      have hs' : s ∈ Set.Icc (0 : ℝ) 1 := ⟨hs.1, hs.2.le⟩
      have := hlip (p + s • e) (p + d + s • e) (hseg p h1 h3 s hs') (hseg (p + d) h2 h4 s hs')
      rwa [show p + d + s • e - (p + s • e) = d by abel] at this)
  simp only [one_smul, zero_smul, add_zero, Real.norm_eq_abs] at key
  rw [show f (p + d + e) - f (p + d) - (f (p + e) - f p) = f (p + d + e) - f (p + e) - (f (p + d) - f p) by ring]
  exact key

end Mixed

theorem norm_sq_le_dot {k : ℕ} (v : Vec k ℝ) : ‖v‖ ^ 2 ≤ v ⬝ᵥ v := by
  have h0 : 0 ≤ v ⬝ᵥ v := dot_self_nonneg v
  rw [← Real.le_sqrt (norm_nonneg _) h0]
  refine norm_le_of_abs (Real.sqrt_nonneg _) fun j => Real.abs_le_sqrt ?_
  rw [sq]
  exact single_le_sum (f := fun j => v j * v j) (fun j _ => mul_self_nonneg (v j)) (mem_univ j)

/-- What `κ D² ≤ e + 2 κ a D` says about `D`. -/
theorem quad_bound {κ D a e : ℝ} (hκ : 0 < κ) (ha : 0 ≤ a) (he : 0 ≤ e) (h : κ * D ^ 2 ≤ κ * e + κ * (a * D)) : D ≤ a + Real.sqrt e := by
  have h1 : D ^ 2 ≤ e + a * D := le_of_mul_le_mul_left (by linarith) hκ
  by_contra hc
  push Not at hc
  have h2 := Real.sqrt_nonneg e
  have h3 := Real.sq_sqrt he
  nlinarith

section
variable {n m p : ℕ} {P : Callbacks n (fun _ : ℝ => m) (fun _ => p)} {dt R : ℝ} {N : ℕ}

/-- Starting elsewhere moves the states by the same amount for all inputs. -/
theorem roll_parallel (hP : ConvexProblem P) (x x' : Vec n ℝ) (z z' : ℕ → Vec m ℝ) (i : ℕ) :
    rollOut P 0 dt x' z' i - rollOut P 0 dt x z' i = rollOut P 0 dt x' z i - rollOut P 0 dt x z i := by
  induction i with
  | zero => rfl
  | succ i ih =>
    obtain ⟨A, B, hA⟩ := hP.affine (timeAt 0 dt i)
    simp only [rollOut]
    rw [hA, hA, sub_self, sub_self, ih]

/-- The trajectory is a Lipschitz function of the inputs. -/
theorem roll_inputs (hP : ConvexProblem P) (N : ℕ) : ∃ K, 0 ≤ K ∧ ∀ i ≤ N, ∀ (x : Vec n ℝ) (z z' : ℕ → Vec m ℝ) (e : ℝ), 0 ≤ e →
    (∀ i < N, ‖z' i - z i‖ ≤ e) → ‖rollOut P 0 dt x z' i - rollOut P 0 dt x z i‖ ≤ K * e := by
  have key : ∀ i, ∃ K, 0 ≤ K ∧ (i ≤ N → ∀ (x : Vec n ℝ) (z z' : ℕ → Vec m ℝ) (e : ℝ), 0 ≤ e →
    (∀ i < N, ‖z' i - z i‖ ≤ e) → ‖rollOut P 0 dt x z' i - rollOut P 0 dt x z i‖ ≤ K * e) := by
    intro i
    induction i with
    | zero => exact ⟨0, le_rfl, fun _ x z z' e he _ => by simp [rollOut]⟩
    | succ i ih =>
      obtain ⟨K, hK, hi⟩ := ih
      obtain ⟨A, B, hA⟩ := hP.affine (timeAt 0 dt i)
      obtain ⟨a, ha, haA⟩ := mulVec_norm_le A
      obtain ⟨b, hb, hbB⟩ := mulVec_norm_le B
      refine ⟨a * K + b, by positivity, fun hiN x z z' e he hz => ?_⟩
      simp only [rollOut]
      rw [hA]
      refine (norm_add_le _ _).trans ?_
      have h1 := (haA (rollOut P 0 dt x z' i - rollOut P 0 dt x z i)).trans (mul_le_mul_of_nonneg_left (hi (by omega) x z z' e he hz) ha)
      have h2 := (hbB (z' i - z i)).trans (mul_le_mul_of_nonneg_left (hz i hiN) hb)
      linarith
  obtain ⟨K, hK, h⟩ := uniform_bound (Q := fun i K => i ≤ N → ∀ (x : Vec n ℝ) (z z' : ℕ → Vec m ℝ) (e : ℝ), 0 ≤ e →
    (∀ i < N, ‖z' i - z i‖ ≤ e) → ‖rollOut P 0 dt x z' i - rollOut P 0 dt x z i‖ ≤ K * e)
    (fun i a b hab h hi x z z' e he hz => (h hi x z z' e he hz).trans (mul_le_mul_of_nonneg_right hab he)) key N
  exact ⟨K, hK, fun i hi => h i hi hi⟩

/-- Mixed differences of the total cost in the initial state and the inputs. -/
theorem cost_mixed (hP : ConvexProblem P) (hdt : 0 ≤ dt) (hrun : ∀ t, ContDiff ℝ 2 fun q : Vec n ℝ × Vec m ℝ => P.runningCost t q.1 q.2)
    (hterm : ∀ t, ContDiff ℝ 2 fun x => P.terminalCost t x) (N : ℕ) {r R : ℝ} (hr : 0 ≤ r) (hR : 0 ≤ R) : ∃ M, 0 ≤ M ∧
    ∀ (x x' : Vec n ℝ) (z z' : ℕ → Vec m ℝ) (e : ℝ), 0 ≤ e → ‖x‖ ≤ r → ‖x'‖ ≤ r → (∀ i < N, ‖z i‖ ≤ R) → (∀ i < N, ‖z' i‖ ≤ R) →
    (∀ i < N, ‖z' i - z i‖ ≤ e) →
    |trajCost P 0 dt N (rollOut P 0 dt x' z') z' - trajCost P 0 dt N (rollOut P 0 dt x' z) z -
      (trajCost P 0 dt N (rollOut P 0 dt x z') z' - trajCost P 0 dt N (rollOut P 0 dt x z) z)| ≤ M * ‖x' - x‖ * e := by
  obtain ⟨ρ, hρ, hroll⟩ := roll_bounded_ball (P := P) (t0 := 0) (dt := dt) hP N hr hR
  obtain ⟨K1, hK1, hin⟩ := roll_init (dt := dt) hP N
  obtain ⟨K2, hK2, hinp⟩ := roll_inputs (dt := dt) hP N
  choose M hM hmix using fun i : ℕ => mixed_ball (hrun (timeAt 0 dt i)) (ρ + R)
  obtain ⟨M', hM', hmix'⟩ := mixed_ball (hterm (timeAt 0 dt N)) (ρ + R)
  refine ⟨(∑ i ∈ range N, dt * (M i * K1 * (K2 + 1))) + M' * K1 * K2, ?_, fun x x' z z' e he hx hx' hz hz' hzz => ?_⟩
  · have : 0 ≤ ∑ i ∈ range N, dt * (M i * K1 * (K2 + 1)) := sum_nonneg fun i _ => by have := hM i; positivity
    positivity
  have hb1 : ∀ i ≤ N, ‖rollOut P 0 dt x z i‖ ≤ ρ + R := fun i hi => (hroll i hi x z hx hz).trans (by linarith)
  have hb2 : ∀ i ≤ N, ‖rollOut P 0 dt x' z i‖ ≤ ρ + R := fun i hi => (hroll i hi x' z hx' hz).trans (by linarith)
  have hb3 : ∀ i ≤ N, ‖rollOut P 0 dt x z' i‖ ≤ ρ + R := fun i hi => (hroll i hi x z' hx hz').trans (by linarith)
  have hb4 : ∀ i ≤ N, ‖rollOut P 0 dt x' z' i‖ ≤ ρ + R := fun i hi => (hroll i hi x' z' hx' hz').trans (by linarith)
  have hz1 : ∀ i < N, ‖z i‖ ≤ ρ + R := fun i hi => (hz i hi).trans (by linarith)
  have hz2 : ∀ i < N, ‖z' i‖ ≤ ρ + R := fun i hi => (hz' i hi).trans (by linarith)
  have e1 : ∀ i, rollOut P 0 dt x z i + (rollOut P 0 dt x' z i - rollOut P 0 dt x z i) = rollOut P 0 dt x' z i := fun i => by abel
  have e2 : ∀ i, rollOut P 0 dt x z i + (rollOut P 0 dt x z' i - rollOut P 0 dt x z i) = rollOut P 0 dt x z' i := fun i => by abel
  have e3 : ∀ i, rollOut P 0 dt x' z i + (rollOut P 0 dt x z' i - rollOut P 0 dt x z i) = rollOut P 0 dt x' z' i := fun i => by
    have := roll_parallel (dt := dt) hP x x' z z' i
    rw [sub_eq_iff_eq_add] at this
    rw [this]; abel
  have hstage : ∀ i ∈ range N, |dt * P.runningCost (timeAt 0 dt i) (rollOut P 0 dt x' z' i) (z' i) -
      dt * P.runningCost (timeAt 0 dt i) (rollOut P 0 dt x' z i) (z i) -
      (dt * P.runningCost (timeAt 0 dt i) (rollOut P 0 dt x z' i) (z' i) - dt * P.runningCost (timeAt 0 dt i) (rollOut P 0 dt x z i) (z i))| ≤
      dt * (M i * K1 * (K2 + 1)) * (‖x' - x‖ * e) := by
    intro i hi
    have hi := mem_range.1 hi
    have a := hmix i (rollOut P 0 dt x z i, z i) (rollOut P 0 dt x' z i - rollOut P 0 dt x z i, 0)
      (rollOut P 0 dt x z' i - rollOut P 0 dt x z i, z' i - z i)
    simp only [Prod.mk_add_mk, e1, e2, e3, add_zero, add_sub_cancel, Prod.norm_mk, norm_zero] at a
    have a := a (max_le (hb1 i hi.le) (hz1 i hi)) (max_le (hb2 i hi.le) (hz1 i hi)) (max_le (hb3 i hi.le) (hz2 i hi))
      (max_le (hb4 i hi.le) (hz2 i hi))
    rw [max_eq_left (norm_nonneg _)] at a
    have b := hin i hi.le x x' z
    have c : max ‖rollOut P 0 dt x z' i - rollOut P 0 dt x z i‖ ‖z' i - z i‖ ≤ (K2 + 1) * e :=
      max_le ((hinp i hi.le x z z' e he hzz).trans (by nlinarith)) ((hzz i hi).trans (by nlinarith [mul_nonneg hK2 he]))
    have d : M i * ‖rollOut P 0 dt x' z i - rollOut P 0 dt x z i‖ * max ‖rollOut P 0 dt x z' i - rollOut P 0 dt x z i‖ ‖z' i - z i‖ ≤
        M i * (K1 * ‖x' - x‖) * ((K2 + 1) * e) :=
      mul_le_mul (mul_le_mul_of_nonneg_left b (hM i)) c ((norm_nonneg _).trans (le_max_left _ _))
        (mul_nonneg (hM i) (mul_nonneg hK1 (norm_nonneg _)))
    rw [← mul_sub, ← mul_sub, ← mul_sub, abs_mul, abs_of_nonneg hdt, mul_assoc dt]
    refine mul_le_mul_of_nonneg_left ((a.trans d).trans (le_of_eq (by ring))) hdt
  have hterminal : |P.terminalCost (timeAt 0 dt N) (rollOut P 0 dt x' z' N) - P.terminalCost (timeAt 0 dt N) (rollOut P 0 dt x' z N) -
      (P.terminalCost (timeAt 0 dt N) (rollOut P 0 dt x z' N) - P.terminalCost (timeAt 0 dt N) (rollOut P 0 dt x z N))| ≤
      M' * K1 * K2 * (‖x' - x‖ * e) := by
    have a := hmix' (rollOut P 0 dt x z N) (rollOut P 0 dt x' z N - rollOut P 0 dt x z N) (rollOut P 0 dt x z' N - rollOut P 0 dt x z N)
    rw [e1, e2, e3] at a
    have a := a (hb1 N le_rfl) (hb2 N le_rfl) (hb3 N le_rfl) (hb4 N le_rfl)
    have d : M' * ‖rollOut P 0 dt x' z N - rollOut P 0 dt x z N‖ * ‖rollOut P 0 dt x z' N - rollOut P 0 dt x z N‖ ≤
        M' * (K1 * ‖x' - x‖) * (K2 * e) :=
      mul_le_mul (mul_le_mul_of_nonneg_left (hin N le_rfl x x' z) hM') (hinp N le_rfl x z z' e he hzz) (norm_nonneg _)
        (mul_nonneg hM' (mul_nonneg hK1 (norm_nonneg _)))
    exact (a.trans d).trans (le_of_eq (by ring))
  unfold trajCost
  have hsum := (abs_sum_le_sum_abs _ _).trans (sum_le_sum hstage)
  rw [← sum_mul, sum_sub_distrib, sum_sub_distrib, sum_sub_distrib] at hsum
  rw [mul_assoc, add_mul]
  refine le_trans (le_of_eq ?_) ((abs_add_le _ _).trans (add_le_add hsum hterminal))
  congr 1
  ring

/-- Near-optimal admissible inputs from two initial states. -/
theorem Regulator.near_lipschitz (h : Regulator P dt R) {μ : ℝ} (hμ0 : 0 < μ) (hμ : StrongCost P μ)
    (hrun : ∀ t, ContDiff ℝ 2 fun q : Vec n ℝ × Vec m ℝ => P.runningCost t q.1 q.2) (hterm : ∀ t, ContDiff ℝ 2 fun x => P.terminalCost t x)
    (N : ℕ) {r : ℝ} (hr : 0 ≤ r) : ∃ C, 1 ≤ C ∧
    ∀ (x x' : Vec n ℝ) (y y' : ℕ → Vec n ℝ) (z z' : ℕ → Vec m ℝ) (ε : ℝ), ‖x‖ ≤ r → ‖x'‖ ≤ r → 0 ≤ ε →
    FeasibleTraj P 0 dt x N y z → FeasibleTraj P 0 dt x' N y' z' → trajCost P 0 dt N y z ≤ value P dt N x + ε →
    trajCost P 0 dt N y' z' ≤ value P dt N x' + ε → ∀ i < N, ‖z' i - z i‖ ≤ C * (‖x' - x‖ + Real.sqrt ε) := by
  have hdt := h.step
  obtain ⟨M, hM, hmix⟩ := cost_mixed h.convex hdt.le hrun hterm N hr h.nonneg
  set κ := dt * μ / 4 with hκ
  have hκ0 : 0 < κ := by positivity
  refine ⟨1 + M / (2 * κ) + Real.sqrt (2 / κ), ?_, fun x x' y y' z z' ε hx hx' hε hf hf' hc hc' i hi => ?_⟩
  · have : 0 ≤ M / (2 * κ) := by positivity
    have := Real.sqrt_nonneg (2 / κ)
    linarith
  have hz : ∀ i < N, ‖z i‖ ≤ R := fun i hi => h.limited _ _ _ fun j => (hf.ineq i hi j).trans zero_le_one
  have hz' : ∀ i < N, ‖z' i‖ ≤ R := fun i hi => h.limited _ _ _ fun j => (hf'.ineq i hi j).trans zero_le_one
  have hg : ∀ i < N, ∀ j, P.ineqConst 0 0 (z i) j ≤ 0 := fun i hi j => by
    have := hf.ineq i hi j
    rwa [h.time.ineqConst, h.inputOnly 0 _ 0] at this
  have hg' : ∀ i < N, ∀ j, P.ineqConst 0 0 (z' i) j ≤ 0 := fun i hi j => by
    have := hf'.ineq i hi j
    rwa [h.time.ineqConst, h.inputOnly 0 _ 0] at this
  rw [trajCost_congr hf.eq_rollOut] at hc
  rw [trajCost_congr hf'.eq_rollOut] at hc'
  set S : ℝ := ∑ i ∈ range N, (z' i - z i) ⬝ᵥ (z' i - z i) with hS
  have hS0 : 0 ≤ S := sum_nonneg fun i _ => dot_self_nonneg _
  set D := Real.sqrt S with hD
  have hD0 : 0 ≤ D := Real.sqrt_nonneg _
  have hDS : D ^ 2 = S := Real.sq_sqrt hS0
  have hzD : ∀ i < N, ‖z' i - z i‖ ≤ D := fun i hi => Real.le_sqrt_of_sq_le ((norm_sq_le_dot _).trans
    (single_le_sum (f := fun i => (z' i - z i) ⬝ᵥ (z' i - z i)) (fun i _ => dot_self_nonneg _) (mem_range.2 hi)))
  have hmid : ∀ x : Vec n ℝ, value P dt N x ≤ 1 / 2 * trajCost P 0 dt N (rollOut P 0 dt x z) z +
      1 / 2 * trajCost P 0 dt N (rollOut P 0 dt x z') z' - κ / 2 * S := by
    intro x
    have a := cost_mix (N := N) (x0 := x) (t0 := 0) h.convex hμ hdt.le (θ := 1 / 2) (by norm_num) (by norm_num) z z'
    have b : value P dt N x ≤ _ := h.value_le (h.feasible x (z := fun i => z i + (1 / 2 : ℝ) • (z' i - z i)) fun i hi j => by
      have c := ineq_mix h.convex (t := 0) (θ := 1 / 2) (by norm_num) (by norm_num) 0 0 (z i) (z' i) j
      rw [h.inputOnly 0 _ 0] at c
      have := hg i hi j
      have := hg' i hi j
      linarith)
    refine (b.trans a).trans (le_of_eq ?_)
    rw [hκ, hS]
    ring
  have h1 := hmid x
  have h2 := hmid x'
  have h3 := (abs_le.1 (hmix x x' z z' D hD0 hx hx' hz hz' hzD)).1
  have h4 : κ * D ^ 2 ≤ κ * (2 / κ * ε) + κ * (M / (2 * κ) * ‖x' - x‖ * D) := by
    have a : κ * (2 / κ * ε) = 2 * ε := by field_simp
    have b : κ * (M / (2 * κ) * ‖x' - x‖ * D) = M * ‖x' - x‖ * D / 2 := by field_simp
    rw [a, b, hDS]
    linarith
  have h5 := quad_bound hκ0 (by positivity) (by positivity) h4
  rw [Real.sqrt_mul (by positivity)] at h5
  refine (hzD i hi).trans (h5.trans ?_)
  have h6 := norm_nonneg (x' - x)
  have h7 := Real.sqrt_nonneg ε
  have h8 := Real.sqrt_nonneg (2 / κ)
  have h9 : 0 ≤ M / (2 * κ) := by positivity
  nlinarith [mul_nonneg h8 h6, mul_nonneg h9 h7]

end
end Nmpc.FMPC
