import Verif.DDP.CertificateProps
import Mathlib.Topology.Sequences
import Mathlib.Topology.MetricSpace.ProperSpace
import Mathlib.Topology.Algebra.Module.FiniteDimension
import Mathlib.Topology.Instances.Matrix

/-!
# DDP: limits of sequences of nearly stationary trajectories (helpers for C149)
-/

set_option linter.unusedSectionVars false

namespace Nmpc.DDP

open Matrix Finset Filter Topology

section
variable {n : ℕ} {md : ℝ → ℕ} {P : Callbacks n md} {t0 dt : ℝ} {x0 : Vec n ℝ} {N : ℕ}
  {dF : (j : ℕ) → Vec n ℝ → Vec (md (timeAt t0 dt j)) ℝ → FDeriv n (md (timeAt t0 dt j)) ℝ}
  {dL : (j : ℕ) → Vec n ℝ → Vec (md (timeAt t0 dt j)) ℝ → LDeriv n (md (timeAt t0 dt j)) ℝ} {dV : Vec n ℝ → VDeriv n ℝ}

/-- The derivative callbacks overwrite their outputs with `dF`, `dL`, `dV` on the time grid; the first derivatives are those of the
dynamics and of the costs, and all of them are continuous. -/
structure SmoothOnGrid (P : Callbacks n md) (t0 dt : ℝ) (N : ℕ)
    (dF : (j : ℕ) → Vec n ℝ → Vec (md (timeAt t0 dt j)) ℝ → FDeriv n (md (timeAt t0 dt j)) ℝ)
    (dL : (j : ℕ) → Vec n ℝ → Vec (md (timeAt t0 dt j)) ℝ → LDeriv n (md (timeAt t0 dt j)) ℝ) (dV : Vec n ℝ → VDeriv n ℝ) : Prop where
  eqF : ∀ j < N, ∀ x u b, P.stateEqDeriv (timeAt t0 dt j) x u b = dF j x u
  eqL : ∀ j < N, ∀ x u b, P.runningCostDeriv (timeAt t0 dt j) x u b = dL j x u
  eqV : ∀ x b, P.terminalCostDeriv (timeAt t0 dt N) x b = dV x
  jac : ∀ j < N, ∀ x u, IsJac2 (P.stateEq (timeAt t0 dt j)) x u (dF j x u).Fx (dF j x u).Fu
  grad : ∀ j < N, ∀ x u, IsGrad2 (P.runningCost (timeAt t0 dt j)) x u (dL j x u).Lx (dL j x u).Lu
  term : ∀ x, IsGrad1 (P.terminalCost (timeAt t0 dt N)) x (dV x).Vx
  contFx : ∀ j < N, Continuous fun q : Vec n ℝ × Vec (md (timeAt t0 dt j)) ℝ => (dF j q.1 q.2).Fx
  contFu : ∀ j < N, Continuous fun q : Vec n ℝ × Vec (md (timeAt t0 dt j)) ℝ => (dF j q.1 q.2).Fu
  contLx : ∀ j < N, Continuous fun q : Vec n ℝ × Vec (md (timeAt t0 dt j)) ℝ => (dL j q.1 q.2).Lx
  contLu : ∀ j < N, Continuous fun q : Vec n ℝ × Vec (md (timeAt t0 dt j)) ℝ => (dL j q.1 q.2).Lu
  contLxx : ∀ j < N, Continuous fun q : Vec n ℝ × Vec (md (timeAt t0 dt j)) ℝ => (dL j q.1 q.2).Lxx
  contLuu : ∀ j < N, Continuous fun q : Vec n ℝ × Vec (md (timeAt t0 dt j)) ℝ => (dL j q.1 q.2).Luu
  contLxu : ∀ j < N, Continuous fun q : Vec n ℝ × Vec (md (timeAt t0 dt j)) ℝ => (dL j q.1 q.2).Lxu
  contVx : Continuous fun x => (dV x).Vx
  contVxx : Continuous fun x => (dV x).Vxx

/-- The states under the inputs `u`. -/
noncomputable def flow (P : Callbacks n md) (t0 dt : ℝ) (x0 : Vec n ℝ) (u : (j : ℕ) → Vec (md (timeAt t0 dt j)) ℝ) : ℕ → Vec n ℝ
  | 0 => x0
  | j + 1 => P.stateEq (timeAt t0 dt j) (flow P t0 dt x0 u j) (u j)

variable (P t0 dt x0 N dF dL dV) in
/-- The costate of stage `N - i`. -/
noncomputable def backCo (u : (j : ℕ) → Vec (md (timeAt t0 dt j)) ℝ) : ℕ → Vec n ℝ
  | 0 => (dV (flow P t0 dt x0 u N)).Vx
  | i + 1 => (dL (N - (i + 1)) (flow P t0 dt x0 u (N - (i + 1))) (u (N - (i + 1)))).Lx +
      (dF (N - (i + 1)) (flow P t0 dt x0 u (N - (i + 1))) (u (N - (i + 1)))).Fxᵀ *ᵥ backCo u i

variable (P t0 dt x0 N dF dL dV) in
/-- The Hessian of the cost of the uncontrolled system at stage `N - i`. -/
noncomputable def backHess (u : (j : ℕ) → Vec (md (timeAt t0 dt j)) ℝ) : ℕ → Mat n n ℝ
  | 0 => (dV (flow P t0 dt x0 u N)).Vxx
  | i + 1 => (dL (N - (i + 1)) (flow P t0 dt x0 u (N - (i + 1))) (u (N - (i + 1)))).Lxx +
      (dF (N - (i + 1)) (flow P t0 dt x0 u (N - (i + 1))) (u (N - (i + 1)))).Fxᵀ * backHess u i *
        (dF (N - (i + 1)) (flow P t0 dt x0 u (N - (i + 1))) (u (N - (i + 1)))).Fx

variable (P t0 dt x0 N dF dL dV) in
/-- The gradient of the total cost with respect to the input of stage `j`. -/
noncomputable def inputGrad (u : (j : ℕ) → Vec (md (timeAt t0 dt j)) ℝ) (j : ℕ) : Vec (md (timeAt t0 dt j)) ℝ :=
  (dL j (flow P t0 dt x0 u j) (u j)).Lu + (dF j (flow P t0 dt x0 u j) (u j)).Fuᵀ *ᵥ backCo P t0 dt x0 N dF dL dV u (N - (j + 1))

variable (P t0 dt x0 N dF dL dV) in
/-- The input Hessian of stage `j` of the uncontrolled system. -/
noncomputable def inputHess (u : (j : ℕ) → Vec (md (timeAt t0 dt j)) ℝ) (j : ℕ) : Mat (md (timeAt t0 dt j)) (md (timeAt t0 dt j)) ℝ :=
  (dL j (flow P t0 dt x0 u j) (u j)).Luu + (dF j (flow P t0 dt x0 u j) (u j)).Fuᵀ * backHess P t0 dt x0 N dF dL dV u (N - (j + 1)) *
    (dF j (flow P t0 dt x0 u j) (u j)).Fu

variable (P t0 dt x0 dF) in
/-- First-order change of the states in the direction `v`. -/
noncomputable def varX (u v : (j : ℕ) → Vec (md (timeAt t0 dt j)) ℝ) : ℕ → Vec n ℝ
  | 0 => 0
  | j + 1 => (dF j (flow P t0 dt x0 u j) (u j)).Fx *ᵥ varX u v j + (dF j (flow P t0 dt x0 u j) (u j)).Fu *ᵥ v j

variable (P t0 dt x0 N dF dL dV) in
/-- The factor of `k_rel_norm_thre²` in the certificate of the small-gradient exit (C109). -/
noncomputable def certBound (Λ : ℝ) (u v : (j : ℕ) → Vec (md (timeAt t0 dt j)) ℝ) : ℝ :=
  4 * (∑ j ∈ range N, ((∑ a, ∑ b, |inputHess P t0 dt x0 N dF dL dV u j a b|) / 2 + Λ) * (Real.sqrt (u j ⬝ᵥ u j) + 1) ^ 2) *
    |∑ j ∈ range N, 1 / 2 * (varX P t0 dt x0 dF u v j ⬝ᵥ (dL j (flow P t0 dt x0 u j) (u j)).Lxx *ᵥ varX P t0 dt x0 dF u v j +
        2 * (varX P t0 dt x0 dF u v j ⬝ᵥ (dL j (flow P t0 dt x0 u j) (u j)).Lxu *ᵥ v j) +
        v j ⬝ᵥ (dL j (flow P t0 dt x0 u j) (u j)).Luu *ᵥ v j) +
      1 / 2 * (varX P t0 dt x0 dF u v N ⬝ᵥ (dV (flow P t0 dt x0 u N)).Vxx *ᵥ varX P t0 dt x0 dF u v N) + Λ / 2 * ∑ j ∈ range N, v j ⬝ᵥ v j|

/-- A quadratic form is bounded by the sum of the magnitudes of the entries of its matrix. -/
theorem quad_le_entries {k : ℕ} (M : Mat k k ℝ) (v : Vec k ℝ) : v ⬝ᵥ M *ᵥ v ≤ (∑ a, ∑ b, |M a b|) * (v ⬝ᵥ v) := by
  have h1 : ∀ a, v a * v a ≤ v ⬝ᵥ v := fun a =>
    single_le_sum (f := fun a => v a * v a) (fun i _ => mul_self_nonneg _) (mem_univ a)
  have e : v ⬝ᵥ M *ᵥ v = ∑ a, ∑ b, v a * (M a b * v b) := by
    simp only [dotProduct, mulVec, mul_sum]
  rw [e, sum_mul]
  refine sum_le_sum fun a _ => ?_
  rw [sum_mul]
  refine sum_le_sum fun b _ => ?_
  have h2 := h1 a
  have h3 := h1 b
  have h4 : v a * (M a b * v b) ≤ |M a b| * |v a * v b| := by
    rw [← abs_mul]
    refine le_trans (le_abs_self _) (le_of_eq ?_)
    congr 1; ring
  have h5 : |v a * v b| ≤ v ⬝ᵥ v := by
    rw [abs_le]
    constructor
    · nlinarith [sq_nonneg (v a + v b)]
    · nlinarith [sq_nonneg (v a - v b)]
  exact h4.trans (mul_le_mul_of_nonneg_left h5 (abs_nonneg _))

/-! ## Continuity -/

theorem SmoothOnGrid.contf (h : SmoothOnGrid P t0 dt N dF dL dV) {j : ℕ} (hj : j < N) :
    Continuous fun q : Vec n ℝ × Vec (md (timeAt t0 dt j)) ℝ => P.stateEq (timeAt t0 dt j) q.1 q.2 :=
  continuous_iff_continuousAt.2 fun q => by
    obtain ⟨D, hD, -⟩ := h.jac j hj q.1 q.2
    exact hD.continuousAt

theorem SmoothOnGrid.contl (h : SmoothOnGrid P t0 dt N dF dL dV) {j : ℕ} (hj : j < N) :
    Continuous fun q : Vec n ℝ × Vec (md (timeAt t0 dt j)) ℝ => P.runningCost (timeAt t0 dt j) q.1 q.2 :=
  continuous_iff_continuousAt.2 fun q => by
    obtain ⟨D, hD, -⟩ := h.grad j hj q.1 q.2
    exact hD.continuousAt

theorem SmoothOnGrid.contφ (h : SmoothOnGrid P t0 dt N dF dL dV) : Continuous (P.terminalCost (timeAt t0 dt N)) :=
  continuous_iff_continuousAt.2 fun q => by
    obtain ⟨D, hD, -⟩ := h.term q
    exact hD.continuousAt

theorem SmoothOnGrid.flow_cont (h : SmoothOnGrid P t0 dt N dF dL dV) {j : ℕ} (hj : j ≤ N) :
    Continuous fun u => flow P t0 dt x0 u j := by
  induction j with
  | zero => exact continuous_const
  | succ j ih => exact (h.contf (by omega)).comp ((ih (by omega)).prodMk (continuous_apply j))

theorem SmoothOnGrid.stage_cont (h : SmoothOnGrid P t0 dt N dF dL dV) {j : ℕ} (hj : j ≤ N) :
    Continuous fun u : (j : ℕ) → Vec (md (timeAt t0 dt j)) ℝ => (flow P t0 dt x0 u j, u j) :=
  (h.flow_cont hj).prodMk (continuous_apply j)

theorem SmoothOnGrid.backCo_cont (h : SmoothOnGrid P t0 dt N dF dL dV) {i : ℕ} (hi : i ≤ N) :
    Continuous fun u => backCo P t0 dt x0 N dF dL dV u i := by
  induction i with
  | zero => exact h.contVx.comp (h.flow_cont le_rfl)
  | succ i ih =>
    have hs := h.stage_cont (x0 := x0) (show N - (i + 1) ≤ N by omega)
    exact ((h.contLx _ (by omega)).comp hs).add ((((h.contFx _ (by omega)).comp hs).matrix_transpose).matrix_mulVec (ih (by omega)))

theorem SmoothOnGrid.backHess_cont (h : SmoothOnGrid P t0 dt N dF dL dV) {i : ℕ} (hi : i ≤ N) :
    Continuous fun u => backHess P t0 dt x0 N dF dL dV u i := by
  induction i with
  | zero => exact h.contVxx.comp (h.flow_cont le_rfl)
  | succ i ih =>
    have hs := h.stage_cont (x0 := x0) (show N - (i + 1) ≤ N by omega)
    have hF := (h.contFx _ (show N - (i + 1) < N by omega)).comp hs
    exact ((h.contLxx _ (by omega)).comp hs).add ((hF.matrix_transpose.matrix_mul (ih (by omega))).matrix_mul hF)

theorem SmoothOnGrid.inputGrad_cont (h : SmoothOnGrid P t0 dt N dF dL dV) {j : ℕ} (hj : j < N) :
    Continuous fun u => inputGrad P t0 dt x0 N dF dL dV u j := by
  have hs := h.stage_cont (x0 := x0) hj.le
  exact ((h.contLu _ hj).comp hs).add ((((h.contFu _ hj).comp hs).matrix_transpose).matrix_mulVec (h.backCo_cont (by omega)))

theorem SmoothOnGrid.inputHess_cont (h : SmoothOnGrid P t0 dt N dF dL dV) {j : ℕ} (hj : j < N) :
    Continuous fun u => inputHess P t0 dt x0 N dF dL dV u j := by
  have hs := h.stage_cont (x0 := x0) hj.le
  have hF := (h.contFu _ hj).comp hs
  exact ((h.contLuu _ hj).comp hs).add ((hF.matrix_transpose.matrix_mul (h.backHess_cont (by omega))).matrix_mul hF)

theorem SmoothOnGrid.varX_cont (h : SmoothOnGrid P t0 dt N dF dL dV) (v : (j : ℕ) → Vec (md (timeAt t0 dt j)) ℝ) {j : ℕ} (hj : j ≤ N) :
    Continuous fun u => varX P t0 dt x0 dF u v j := by
  induction j with
  | zero => exact continuous_const
  | succ j ih =>
    have hs := h.stage_cont (x0 := x0) (show j ≤ N by omega)
    exact (((h.contFx _ (by omega)).comp hs).matrix_mulVec (ih (by omega))).add (((h.contFu _ (by omega)).comp hs).matrix_mulVec continuous_const)

theorem SmoothOnGrid.certBound_cont (h : SmoothOnGrid P t0 dt N dF dL dV) (Λ : ℝ) (v : (j : ℕ) → Vec (md (timeAt t0 dt j)) ℝ) :
    Continuous fun u => certBound P t0 dt x0 N dF dL dV Λ u v := by
  unfold certBound
  refine (continuous_const.mul ?_).mul ((Continuous.add ?_ ?_).add continuous_const).abs
  · refine continuous_finsetSum _ fun j hj => ?_
    have hj := mem_range.1 hj
    refine Continuous.mul (Continuous.add (Continuous.div_const ?_ _) continuous_const) ?_
    · exact continuous_finsetSum _ fun a _ => continuous_finsetSum _ fun b _ => ((h.inputHess_cont hj).matrix_elem a b).abs
    · exact (((continuous_apply j).dotProduct (continuous_apply j)).sqrt.add continuous_const).pow 2
  · refine continuous_finsetSum _ fun j hj => ?_
    have hj := mem_range.1 hj
    have hs := h.stage_cont (x0 := x0) hj.le
    have hX := h.varX_cont (x0 := x0) v hj.le
    exact continuous_const.mul (((hX.dotProduct (((h.contLxx _ hj).comp hs).matrix_mulVec hX)).add
      (continuous_const.mul (hX.dotProduct (((h.contLxu _ hj).comp hs).matrix_mulVec continuous_const)))).add
      (continuous_const.dotProduct (((h.contLuu _ hj).comp hs).matrix_mulVec continuous_const)))
  · have hX := h.varX_cont (x0 := x0) v (le_refl N)
    exact continuous_const.mul (hX.dotProduct ((h.contVxx.comp (h.flow_cont le_rfl)).matrix_mulVec hX))

/-- The total cost under the inputs `u`. -/
noncomputable def flowCost (P : Callbacks n md) (t0 dt : ℝ) (x0 : Vec n ℝ) (N : ℕ) (u : (j : ℕ) → Vec (md (timeAt t0 dt j)) ℝ) : ℝ :=
  ∑ j ∈ range N, P.runningCost (timeAt t0 dt j) (flow P t0 dt x0 u j) (u j) + P.terminalCost (timeAt t0 dt N) (flow P t0 dt x0 u N)

theorem SmoothOnGrid.flowCost_cont (h : SmoothOnGrid P t0 dt N dF dL dV) : Continuous fun u => flowCost P t0 dt x0 N u := by
  refine (continuous_finsetSum _ fun j hj => ?_).add (h.contφ.comp (h.flow_cont le_rfl))
  exact (h.contl (mem_range.1 hj)).comp (h.stage_cont (mem_range.1 hj).le)

/-- Inputs whose gradient is small in the sense of the certificate are near stationary ones. -/
theorem SmoothOnGrid.near (h : SmoothOnGrid P t0 dt N dF dL dV) (x0 : Vec n ℝ) (R Λ : ℝ) {η : ℝ} (hη : 0 < η) :
    ∃ ε : ℝ, 0 < ε ∧ ∀ u : (j : ℕ) → Vec (md (timeAt t0 dt j)) ℝ, (∀ j, ‖u j‖ ≤ R) →
      (∀ v : (j : ℕ) → Vec (md (timeAt t0 dt j)) ℝ, (∑ j ∈ range N, inputGrad P t0 dt x0 N dF dL dV u j ⬝ᵥ v j) ^ 2 ≤
        ε ^ 2 * certBound P t0 dt x0 N dF dL dV Λ u v) →
      ∃ w : (j : ℕ) → Vec (md (timeAt t0 dt j)) ℝ, (∀ j < N, inputGrad P t0 dt x0 N dF dL dV w j = 0) ∧ (∀ j < N, ‖u j - w j‖ ≤ η) ∧
        (∀ j ≤ N, ‖flow P t0 dt x0 u j - flow P t0 dt x0 w j‖ ≤ η) ∧ |flowCost P t0 dt x0 N u - flowCost P t0 dt x0 N w| ≤ η := by
  by_contra hcon
  push Not at hcon
  have hcon' := fun k : ℕ => hcon (1 / ((k : ℝ) + 1)) (by positivity)
  choose u hu hg hw using hcon'
  have hK : IsCompact (Set.univ.pi fun j : ℕ => Metric.closedBall (0 : Vec (md (timeAt t0 dt j)) ℝ) R) :=
    isCompact_univ_pi fun i => isCompact_closedBall _ _
  obtain ⟨w, -, φ, hφ, ht⟩ := hK.tendsto_subseq (x := u) fun k i _ => by simpa using hu k i
  have htol : Tendsto (fun k => 1 / ((φ k : ℝ) + 1)) atTop (𝓝 0) := tendsto_one_div_add_atTop_nhds_zero_nat.comp hφ.tendsto_atTop
  have hzero : ∀ v : (j : ℕ) → Vec (md (timeAt t0 dt j)) ℝ, (∑ j ∈ range N, inputGrad P t0 dt x0 N dF dL dV w j ⬝ᵥ v j) ^ 2 ≤ 0 := by
    intro v
    have c1 : Continuous fun u : (j : ℕ) → Vec (md (timeAt t0 dt j)) ℝ => (∑ j ∈ range N, inputGrad P t0 dt x0 N dF dL dV u j ⬝ᵥ v j) ^ 2 :=
      (continuous_finsetSum _ fun j hj => (h.inputGrad_cont (mem_range.1 hj)).dotProduct continuous_const).pow 2
    have l1 := (c1.tendsto w).comp ht
    have l2 := (htol.pow 2).mul (((h.certBound_cont (x0 := x0) Λ v).tendsto w).comp ht)
    rw [zero_pow two_ne_zero, zero_mul] at l2
    exact le_of_tendsto_of_tendsto' l1 l2 fun k => hg (φ k) v
  have hst : ∀ j < N, inputGrad P t0 dt x0 N dF dL dV w j = 0 := by
    intro i hi
    have h1 := hzero fun j => if j = i then inputGrad P t0 dt x0 N dF dL dV w j else 0
    have h2 : ∑ j ∈ range N, inputGrad P t0 dt x0 N dF dL dV w j ⬝ᵥ (if j = i then inputGrad P t0 dt x0 N dF dL dV w j else 0) =
        inputGrad P t0 dt x0 N dF dL dV w i ⬝ᵥ inputGrad P t0 dt x0 N dF dL dV w i := by
      rw [sum_eq_single i (fun j _ hj => by rw [if_neg hj, dotProduct_zero]) (fun hi' => absurd (mem_range.2 hi) hi'), if_pos rfl]
    rw [h2] at h1
    exact dotProduct_self_eq_zero.1 (pow_eq_zero_iff two_ne_zero |>.1 (le_antisymm h1 (sq_nonneg _)))
  have e1 : ∀ j < N, ∀ᶠ k in atTop, ‖u (φ k) j - w j‖ ≤ η := fun j _ => by
    have := (tendsto_pi_nhds.1 ht j)
    have l := (tendsto_iff_norm_sub_tendsto_zero.1 this).eventually_le_const hη
    exact l
  have e2 : ∀ j ≤ N, ∀ᶠ k in atTop, ‖flow P t0 dt x0 (u (φ k)) j - flow P t0 dt x0 w j‖ ≤ η := fun j hj => by
    have := ((h.flow_cont (x0 := x0) hj).tendsto w).comp ht
    exact (tendsto_iff_norm_sub_tendsto_zero.1 this).eventually_le_const hη
  have e3 : ∀ᶠ k in atTop, |flowCost P t0 dt x0 N (u (φ k)) - flowCost P t0 dt x0 N w| ≤ η := by
    have := ((h.flowCost_cont (x0 := x0)).tendsto w).comp ht
    exact (tendsto_iff_norm_sub_tendsto_zero.1 this).eventually_le_const hη
  have a1 : ∀ᶠ k in atTop, ∀ j ∈ range N, ‖u (φ k) j - w j‖ ≤ η :=
    (eventually_all_finset _).2 fun j hj => e1 j (mem_range.1 hj)
  have a2 : ∀ᶠ k in atTop, ∀ j ∈ range (N + 1), ‖flow P t0 dt x0 (u (φ k)) j - flow P t0 dt x0 w j‖ ≤ η :=
    (eventually_all_finset _).2 fun j hj => e2 j (by have := mem_range.1 hj; omega)
  obtain ⟨k, k1, k2, k3⟩ := (a1.and (a2.and e3)).exists
  exact absurd k3 (not_le.2 (hw (φ k) w hst (fun j hj => k1 j (mem_range.2 hj)) fun j hj => k2 j (mem_range.2 (by omega))))

end

end Nmpc.DDP
