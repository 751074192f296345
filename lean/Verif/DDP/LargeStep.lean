import Verif.DDP.Large
import Mathlib.Analysis.Calculus.Deriv.MeanValue

/-!
# DDP steps with large regularisation decrease the cost (helpers for C150)
-/

set_option linter.unusedSectionVars false

namespace Nmpc.DDP

open Matrix Finset Filter Topology

variable {n : ℕ} {md : ℝ → ℕ} {P : Callbacks n md} {t0 dt : ℝ} {x0 : Vec n ℝ} {N : ℕ}
  {dF : (j : ℕ) → Vec n ℝ → Vec (md (timeAt t0 dt j)) ℝ → FDeriv n (md (timeAt t0 dt j)) ℝ}
  {dL : (j : ℕ) → Vec n ℝ → Vec (md (timeAt t0 dt j)) ℝ → LDeriv n (md (timeAt t0 dt j)) ℝ} {dV : Vec n ℝ → VDeriv n ℝ}

/-- The derivative of the total cost along a line in the space of inputs. -/
theorem SmoothOnGrid.flowCost_deriv (h : SmoothOnGrid P t0 dt N dF dL dV) (x0 : Vec n ℝ) (u w : (j : ℕ) → Vec (md (timeAt t0 dt j)) ℝ) (s : ℝ) :
    HasDerivAt (fun s : ℝ => flowCost P t0 dt x0 N (u + s • w)) (∑ j ∈ range N, inputGrad P t0 dt x0 N dF dL dV (u + s • w) j ⬝ᵥ w j) s := by
  have key : ∀ u : (j : ℕ) → Vec (md (timeAt t0 dt j)) ℝ,
      HasDerivAt (fun s : ℝ => flowCost P t0 dt x0 N (u + s • w)) (∑ j ∈ range N, inputGrad P t0 dt x0 N dF dL dV u j ⬝ᵥ w j) 0 := by
    intro u
    set c := flowCtrl P t0 dt x0 N u with hcdef
    have htr : IsTrajectory P t0 dt N x0 (c.out N) := out_isTrajectory (flowCtrl_consistent none u)
    have hx : ∀ j ≤ N, (c.out N).xs[j]? = some (flow P t0 dt x0 u j) := fun j hj => by
      simp [Ctrl.out, List.getElem?_range (show j < N + 1 by omega), hcdef, flowCtrl]
    have hu' : ∀ j < N, (c.out N).us[j]? = some ⟨md (timeAt t0 dt j), u j⟩ := fun j hj => out_us_get c hj
    have back : ∀ j < N, N - j = (N - (j + 1)) + 1 ∧ N - (N - (j + 1) + 1) = j := fun j hj => by omega
    have hD : InputVariation P t0 dt N x0 (c.out N) w (fun s => (flowCtrl P t0 dt x0 N (u + s • w)).out N) := by
      refine ⟨fun s => out_isTrajectory (flowCtrl_consistent none _), fun s j hj u' h' => ?_⟩
      obtain rfl : u j = u' := out_us_eq (c := c) hj h'
      exact out_us_get (flowCtrl P t0 dt x0 N (u + s • w)) hj
    have hgrad := C73_gradient htr (h.firstOrder _) w hD (fun _ => ⟨0, 0⟩) (fun _ => ⟨0, 0, 0, 0, 0⟩) ⟨0, 0⟩ (flow P t0 dt x0 u) u hx hu'
      (fun j => backCo P t0 dt x0 N dF dL dV u (N - j)) (by rw [h.eqV, Nat.sub_self]; rfl) (fun j hj => by
        rw [h.eqL j hj, h.eqF j hj, (back j hj).1, backCo, (back j hj).2])
    have e : (fun s : ℝ => flowCost P t0 dt x0 N (u + s • w)) = fun s => ((flowCtrl P t0 dt x0 N (u + s • w)).out N).costs.sum := by
      funext s
      rw [totalCost_out, flowCtrl_cost]
    rw [e]
    refine hgrad.congr_deriv (sum_congr rfl fun j hj => ?_)
    rw [h.eqL j (mem_range.1 hj), h.eqF j (mem_range.1 hj)]
    rfl
  have h1 := key (u + s • w)
  have h2 : HasDerivAt (fun r : ℝ => r - s) 1 s := (hasDerivAt_id s).sub_const s
  have h3 := HasDerivAt.comp s (h₂ := fun r : ℝ => flowCost P t0 dt x0 N (u + s • w + r • w)) (h := fun r : ℝ => r - s) (by rw [sub_self]; exact h1) h2
  rw [mul_one] at h3
  refine h3.congr_of_eventuallyEq (Eventually.of_forall fun r => ?_)
  simp only [Function.comp]
  congr 1
  rw [add_assoc, ← add_smul]
  congr 2
  ring

/-- Near inputs that are not stationary, the full step with a large regularisation reduces the cost by nearly as much as expected. -/
theorem SmoothOnGrid.large_local (h : SmoothOnGrid P t0 dt N dF dL dV) {u0 : (j : ℕ) → Vec (md (timeAt t0 dt j)) ℝ}
    (hG : 0 < ∑ j ∈ range N, inputGrad P t0 dt x0 N dF dL dV u0 j ⬝ᵥ inputGrad P t0 dt x0 N dF dL dV u0 j) {ρ : ℝ} (hρ : ρ < 1) :
    ∀ᶠ q : ℝ × ((j : ℕ) → Vec (md (timeAt t0 dt j)) ℝ) in 𝓝 (0, u0), 0 < q.1 → 0 < largeExp P t0 dt x0 N dF dL dV q.1 q.2 ∧
      ρ * (q.1 * largeExp P t0 dt x0 N dF dL dV q.1 q.2) <
        flowCost P t0 dt x0 N q.2 - flowCost P t0 dt x0 N (q.2 + q.1 • largeW P t0 dt x0 N dF dL dV q.1 q.2) := by
  set G := ∑ j ∈ range N, inputGrad P t0 dt x0 N dF dL dV u0 j ⬝ᵥ inputGrad P t0 dt x0 N dF dL dV u0 j with hGdef
  have hE := h.largeExp_cont (x0 := x0) u0
  have hE0 : largeExp P t0 dt x0 N dF dL dV 0 u0 = G := largeExp_zero u0
  have e1 : ∀ᶠ q : ℝ × ((j : ℕ) → Vec (md (timeAt t0 dt j)) ℝ) in 𝓝 (0, u0), 0 < largeExp P t0 dt x0 N dF dL dV q.1 q.2 :=
    hE.eventually_const_lt (by show 0 < largeExp P t0 dt x0 N dF dL dV 0 u0; rw [hE0]; exact hG)
  -- the slope at distance `s`
  have hS : ContinuousAt (fun z : ℝ × (ℝ × ((j : ℕ) → Vec (md (timeAt t0 dt j)) ℝ)) =>
      -(∑ j ∈ range N, inputGrad P t0 dt x0 N dF dL dV (z.2.2 + z.1 • largeW P t0 dt x0 N dF dL dV z.2.1 z.2.2) j ⬝ᵥ
        largeW P t0 dt x0 N dF dL dV z.2.1 z.2.2 j) - ρ * largeExp P t0 dt x0 N dF dL dV z.2.1 z.2.2) (0, (0, u0)) := by
    have hw : ContinuousAt (fun z : ℝ × (ℝ × ((j : ℕ) → Vec (md (timeAt t0 dt j)) ℝ)) => largeW P t0 dt x0 N dF dL dV z.2.1 z.2.2) (0, (0, u0)) :=
      ContinuousAt.comp (g := fun q : ℝ × ((j : ℕ) → Vec (md (timeAt t0 dt j)) ℝ) => largeW P t0 dt x0 N dF dL dV q.1 q.2) (f := Prod.snd)
        (h.largeW_cont u0) continuousAt_snd
    have hp : ContinuousAt (fun z : ℝ × (ℝ × ((j : ℕ) → Vec (md (timeAt t0 dt j)) ℝ)) => z.2.2 + z.1 • largeW P t0 dt x0 N dF dL dV z.2.1 z.2.2) (0, (0, u0)) :=
      (continuous_snd.comp continuous_snd).continuousAt.add (continuousAt_fst.smul hw)
    have he : ContinuousAt (fun z : ℝ × (ℝ × ((j : ℕ) → Vec (md (timeAt t0 dt j)) ℝ)) => largeExp P t0 dt x0 N dF dL dV z.2.1 z.2.2) (0, (0, u0)) :=
      ContinuousAt.comp (g := fun q : ℝ × ((j : ℕ) → Vec (md (timeAt t0 dt j)) ℝ) => largeExp P t0 dt x0 N dF dL dV q.1 q.2) (f := Prod.snd) hE continuousAt_snd
    refine (ContinuousAt.neg (tendsto_finsetSum _ fun j hj => ?_)).sub (continuousAt_const.mul he)
    refine contAt_dot ?_ (continuousAt_pi.1 hw j)
    exact ((h.inputGrad_cont (mem_range.1 hj)).continuousAt).comp hp
  have e2 := hS.eventually_const_lt (show (0 : ℝ) < _ by
    show 0 < -(∑ j ∈ range N, inputGrad P t0 dt x0 N dF dL dV (u0 + (0 : ℝ) • largeW P t0 dt x0 N dF dL dV 0 u0) j ⬝ᵥ
        largeW P t0 dt x0 N dF dL dV 0 u0 j) - ρ * largeExp P t0 dt x0 N dF dL dV 0 u0
    rw [hE0, zero_smul, add_zero, sum_congr rfl fun j hj => by rw [largeW_zero u0 (mem_range.1 hj), dotProduct_neg], sum_neg_distrib, neg_neg, ← hGdef]
    nlinarith)
  rw [nhds_prod_eq] at e2
  obtain ⟨p1, h1, p2, h2, h12⟩ := eventually_prod_iff.1 e2
  obtain ⟨δ, hδ, hδ'⟩ := Metric.eventually_nhds_iff.1 h1
  have e3 : ∀ᶠ q : ℝ × ((j : ℕ) → Vec (md (timeAt t0 dt j)) ℝ) in 𝓝 (0, u0), q.1 < δ := continuousAt_fst.eventually_lt_const hδ
  filter_upwards [e1, h2, e3] with q q1 q2 q3 hq
  refine ⟨q1, ?_⟩
  set w := largeW P t0 dt x0 N dF dL dV q.1 q.2 with hw
  obtain ⟨s, ⟨hs0, hs1⟩, hs⟩ := exists_hasDerivAt_eq_slope (fun s : ℝ => flowCost P t0 dt x0 N (q.2 + s • w))
    (fun s => ∑ j ∈ range N, inputGrad P t0 dt x0 N dF dL dV (q.2 + s • w) j ⬝ᵥ w j) hq
    (fun s _ => (h.flowCost_deriv x0 q.2 w s).continuousAt.continuousWithinAt) (fun s _ => h.flowCost_deriv x0 q.2 w s)
  have h3 := h12 (hδ' (by rw [Real.dist_eq, sub_zero, abs_of_pos hs0]; linarith)) q2
  dsimp only at h3 hs
  rw [← hw, hs, zero_smul, add_zero, sub_zero] at h3
  have h4 := mul_lt_mul_of_pos_left h3 hq
  rw [mul_zero, mul_sub, mul_neg, mul_div_cancel₀ _ hq.ne'] at h4
  linarith

/-- The regularised Hessians are positive definite if the regularisation is large. -/
theorem SmoothOnGrid.large_posDef (h : SmoothOnGrid P t0 dt N dF dL dV) (hP : P.SymmHess) (u0 : (j : ℕ) → Vec (md (timeAt t0 dt j)) ℝ) :
    ∀ᶠ q : ℝ × ((j : ℕ) → Vec (md (timeAt t0 dt j)) ℝ) in 𝓝 (0, u0), 0 < q.1 → ∀ j < N,
      (largeQuu P t0 dt x0 N dF dL dV q.1 q.2 j + q.1⁻¹ • 1).PosDef := by
  have e : ∀ᶠ q : ℝ × ((j : ℕ) → Vec (md (timeAt t0 dt j)) ℝ) in 𝓝 (0, u0), ∀ j ∈ range N,
      q.1 * (∑ a, ∑ b, |(-largeQuu P t0 dt x0 N dF dL dV q.1 q.2 j) a b|) < 1 := by
    refine (eventually_all_finset _).2 fun j hj => ?_
    have hs := (h.largeV_stage (x0 := x0) u0 (mem_range.1 hj)).quu.neg
    have hc : ContinuousAt (fun q : ℝ × ((j : ℕ) → Vec (md (timeAt t0 dt j)) ℝ) =>
        q.1 * (∑ a, ∑ b, |(-largeQuu P t0 dt x0 N dF dL dV q.1 q.2 j) a b|)) (0, u0) := by
      refine continuousAt_fst.mul (tendsto_finsetSum _ fun a _ => tendsto_finsetSum _ fun b _ => ?_)
      exact ((continuousAt_pi.1 (continuousAt_pi.1 hs a)) b).abs
    exact hc.eventually_lt_const (by show (0 : ℝ) * _ < 1; rw [zero_mul]; exact one_pos)
  filter_upwards [e] with q hq hq0 j hj
  have hsym : (largeQuu P t0 dt x0 N dF dL dV q.1 q.2 j).IsSymm := by
    have h1 : (dL j (flow P t0 dt x0 q.2 j) (q.2 j)).Luu.IsSymm := by
      rw [← h.eqL j hj _ _ ⟨0, 0, 0, 0, 0⟩]
      exact hP.run _ _ _ _
    have h2 : ∀ i, (largeV P t0 dt x0 N dF dL dV q.1 q.2 i).Vxx.IsSymm := by
      intro i
      cases i with
      | zero =>
        rw [largeV, ← h.eqV _ ⟨0, 0⟩]
        exact hP.term _ _ _
      | succ i => exact stV_symm _ _ _ _
    have h3 := h2 (N - (j + 1))
    simp only [Matrix.IsSymm] at h1 h3 ⊢
    simp only [largeQuu, stQuu, transpose_add, transpose_mul, transpose_transpose, h1, h3, Matrix.mul_assoc]
  have hq1 := hq j (mem_range.2 hj)
  refine Matrix.PosDef.of_dotProduct_mulVec_pos ?_ fun {v} hv => ?_
  · have : (largeQuu P t0 dt x0 N dF dL dV q.1 q.2 j + q.1⁻¹ • (1 : Mat _ _ ℝ)).IsSymm := hsym.add (by simp [Matrix.IsSymm])
    simpa [Matrix.IsHermitian, Matrix.IsSymm] using this
  · have hvv : 0 < v ⬝ᵥ v := by
      have := dotProduct_self_star_nonneg v
      rcases this.lt_or_eq with h | h
      · simpa using h
      · exact absurd (dotProduct_self_eq_zero.1 (by simpa using h.symm)) hv
    have h1 := quad_le_entries (-largeQuu P t0 dt x0 N dF dL dV q.1 q.2 j) v
    rw [neg_mulVec, dotProduct_neg] at h1
    have h2 : (∑ a, ∑ b, |(-largeQuu P t0 dt x0 N dF dL dV q.1 q.2 j) a b|) < q.1⁻¹ := by
      rw [← one_div, lt_div_iff₀ hq0, mul_comm]
      exact hq1
    simp only [star_trivial, add_mulVec, smul_mulVec, one_mulVec, dotProduct_add, dotProduct_smul, smul_eq_mul]
    nlinarith

/-- The two statements, uniformly over bounded inputs. -/
theorem SmoothOnGrid.large_uniform (h : SmoothOnGrid P t0 dt N dF dL dV) (hP : P.SymmHess) (x0 : Vec n ℝ) (R : ℝ) {ε ρ : ℝ} (hε : 0 < ε) (hρ : ρ < 1) :
    ∃ Λ : ℝ, 0 < Λ ∧ ∀ lam, Λ ≤ lam → ∀ u : (j : ℕ) → Vec (md (timeAt t0 dt j)) ℝ, (∀ j, ‖u j‖ ≤ R) →
      (∀ j < N, (largeQuu P t0 dt x0 N dF dL dV lam⁻¹ u j + lam • 1).PosDef) ∧
      (ε ≤ ∑ j ∈ range N, inputGrad P t0 dt x0 N dF dL dV u j ⬝ᵥ inputGrad P t0 dt x0 N dF dL dV u j →
        0 < largeExp P t0 dt x0 N dF dL dV lam⁻¹ u ∧ ρ * (lam⁻¹ * largeExp P t0 dt x0 N dF dL dV lam⁻¹ u) <
          flowCost P t0 dt x0 N u - flowCost P t0 dt x0 N (u + lam⁻¹ • largeW P t0 dt x0 N dF dL dV lam⁻¹ u)) := by
  have hK : IsCompact (Set.univ.pi fun j : ℕ => Metric.closedBall (0 : Vec (md (timeAt t0 dt j)) ℝ) R) :=
    isCompact_univ_pi fun i => isCompact_closedBall _ _
  have hG : Continuous fun u : (j : ℕ) → Vec (md (timeAt t0 dt j)) ℝ =>
      ∑ j ∈ range N, inputGrad P t0 dt x0 N dF dL dV u j ⬝ᵥ inputGrad P t0 dt x0 N dF dL dV u j :=
    continuous_finsetSum _ fun j hj => (h.inputGrad_cont (mem_range.1 hj)).dotProduct (h.inputGrad_cont (mem_range.1 hj))
  have c1 := hK.eventually_forall_of_forall_eventually (x₀ := (0 : ℝ))
    (P := fun τ u => 0 < τ → ∀ j < N, (largeQuu P t0 dt x0 N dF dL dV τ u j + τ⁻¹ • 1).PosDef) fun u _ => h.large_posDef hP u
  have c2 := (hK.inter_right (isClosed_le continuous_const hG)).eventually_forall_of_forall_eventually (x₀ := (0 : ℝ))
    (P := fun τ u => 0 < τ → 0 < largeExp P t0 dt x0 N dF dL dV τ u ∧ ρ * (τ * largeExp P t0 dt x0 N dF dL dV τ u) <
        flowCost P t0 dt x0 N u - flowCost P t0 dt x0 N (u + τ • largeW P t0 dt x0 N dF dL dV τ u))
    fun u hu => h.large_local (hε.trans_le hu.2) hρ
  obtain ⟨δ, hδ, hδ'⟩ := Metric.eventually_nhds_iff.1 (c1.and c2)
  refine ⟨2 / δ, by positivity, fun lam hlam u hu => ?_⟩
  have hl : 0 < lam := lt_of_lt_of_le (by positivity) hlam
  have hi : 0 < lam⁻¹ := inv_pos.2 hl
  obtain ⟨k1, k2⟩ := hδ' (y := lam⁻¹) (by
    rw [Real.dist_eq, sub_zero, abs_of_pos hi, ← one_div, div_lt_iff₀ hl]
    rw [div_le_iff₀ hδ] at hlam
    linarith)
  have hu' : u ∈ Set.univ.pi fun j : ℕ => Metric.closedBall (0 : Vec (md (timeAt t0 dt j)) ℝ) R := fun j _ => by simpa using hu j
  refine ⟨fun j hj => ?_, fun hg => k2 u ⟨hu', hg⟩ hi⟩
  have := k1 u hu' hi j hj
  rwa [inv_inv] at this

/-- Inputs with a small gradient are near stationary ones. -/
theorem SmoothOnGrid.near_grad (h : SmoothOnGrid P t0 dt N dF dL dV) (x0 : Vec n ℝ) (R : ℝ) {η : ℝ} (hη : 0 < η) :
    ∃ ε : ℝ, 0 < ε ∧ ∀ u : (j : ℕ) → Vec (md (timeAt t0 dt j)) ℝ, (∀ j, ‖u j‖ ≤ R) →
      (∑ j ∈ range N, inputGrad P t0 dt x0 N dF dL dV u j ⬝ᵥ inputGrad P t0 dt x0 N dF dL dV u j < ε) →
      ∃ w : (j : ℕ) → Vec (md (timeAt t0 dt j)) ℝ, (∀ j < N, inputGrad P t0 dt x0 N dF dL dV w j = 0) ∧ (∀ j < N, ‖u j - w j‖ ≤ η) ∧
        (∀ j ≤ N, ‖flow P t0 dt x0 u j - flow P t0 dt x0 w j‖ ≤ η) ∧ |flowCost P t0 dt x0 N u - flowCost P t0 dt x0 N w| ≤ η := by
  by_contra hcon
  push Not at hcon
  have hcon' := fun k : ℕ => hcon (1 / ((k : ℝ) + 1)) (by positivity)
  choose u hu hg hw using hcon'
  have hK : IsCompact (Set.univ.pi fun j : ℕ => Metric.closedBall (0 : Vec (md (timeAt t0 dt j)) ℝ) R) :=
    isCompact_univ_pi fun i => isCompact_closedBall _ _
  obtain ⟨w, -, φ, hφ, ht⟩ := hK.tendsto_subseq (x := u) fun k i _ => by simpa using hu k i
  have htol : Tendsto (fun k => 1 / ((φ k : ℝ) + 1)) atTop (𝓝 0) := tendsto_one_div_add_atTop_nhds_zero_nat.comp hφ.tendsto_atTop
  have hG : Continuous fun u : (j : ℕ) → Vec (md (timeAt t0 dt j)) ℝ =>
      ∑ j ∈ range N, inputGrad P t0 dt x0 N dF dL dV u j ⬝ᵥ inputGrad P t0 dt x0 N dF dL dV u j :=
    continuous_finsetSum _ fun j hj => (h.inputGrad_cont (mem_range.1 hj)).dotProduct (h.inputGrad_cont (mem_range.1 hj))
  have hzero : ∑ j ∈ range N, inputGrad P t0 dt x0 N dF dL dV w j ⬝ᵥ inputGrad P t0 dt x0 N dF dL dV w j ≤ 0 :=
    le_of_tendsto_of_tendsto' ((hG.tendsto w).comp ht) htol fun k => (hg (φ k)).le
  have hst : ∀ j < N, inputGrad P t0 dt x0 N dF dL dV w j = 0 := by
    intro i hi
    have h1 := single_le_sum (f := fun j => inputGrad P t0 dt x0 N dF dL dV w j ⬝ᵥ inputGrad P t0 dt x0 N dF dL dV w j)
      (fun j _ => dotProduct_self_star_nonneg (inputGrad P t0 dt x0 N dF dL dV w j)) (mem_range.2 hi)
    exact dotProduct_self_eq_zero.1 (le_antisymm (h1.trans hzero) (dotProduct_self_star_nonneg (inputGrad P t0 dt x0 N dF dL dV w i)))
  have e1 : ∀ j < N, ∀ᶠ k in atTop, ‖u (φ k) j - w j‖ ≤ η := fun j _ => by
    have := (tendsto_pi_nhds.1 ht j)
    exact (tendsto_iff_norm_sub_tendsto_zero.1 this).eventually_le_const hη
  have e2 : ∀ j ≤ N, ∀ᶠ k in atTop, ‖flow P t0 dt x0 (u (φ k)) j - flow P t0 dt x0 w j‖ ≤ η := fun j hj => by
    have := ((h.flow_cont (x0 := x0) hj).tendsto w).comp ht
    exact (tendsto_iff_norm_sub_tendsto_zero.1 this).eventually_le_const hη
  have e3 : ∀ᶠ k in atTop, |flowCost P t0 dt x0 N (u (φ k)) - flowCost P t0 dt x0 N w| ≤ η := by
    have := ((h.flowCost_cont (x0 := x0)).tendsto w).comp ht
    exact (tendsto_iff_norm_sub_tendsto_zero.1 this).eventually_le_const hη
  have a1 : ∀ᶠ k in atTop, ∀ j ∈ range N, ‖u (φ k) j - w j‖ ≤ η :=
    (eventually_all_finset _).2 fun j hj => e1 j (mem_range.1 hj)
  have a2 : ∀ᶠ k in atTop, ∀ j ∈ range (N + 1), ‖flow P t0 dt x0 (u (φ k)) j - flow P t0 dt x0 w j‖ ≤ η :=
    (eventually_all_finset _).2 fun j hj => e2 j (by have := mem_range.1 hj; omega)
  obtain ⟨k, k1, k2, k3⟩ := (a1.and (a2.and e3)).exists
  exact absurd k3 (not_le.2 (hw (φ k) w hst (fun j hj => k1 j (mem_range.2 hj)) fun j hj => k2 j (mem_range.2 (by omega))))

end Nmpc.DDP
