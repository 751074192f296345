import Verif.DDP.GlobalNewtonProps
import Verif.DDP.Witness
import Mathlib.Topology.Order.Compact
import Mathlib.Topology.MetricSpace.ProperSpace
import Mathlib.Topology.Instances.Matrix

/-!
# C116: the minimiser and the constants exist, and the solver terminates
-/

namespace Nmpc.DDP

set_option linter.unusedSectionVars false

open Matrix Finset

theorem dot_sq_le {k : ℕ} (a b : Vec k ℝ) : (a ⬝ᵥ b) ^ 2 ≤ (a ⬝ᵥ a) * (b ⬝ᵥ b) := by
  have := sum_mul_sq_le_sq_mul_sq univ a b
  simpa [dotProduct, pow_two] using this

/-- `‖A x‖² ≤ K ‖x‖²`. -/
theorem exists_mulVec_bound {k l : ℕ} (A : Mat k l ℝ) : ∃ K : ℝ, 0 ≤ K ∧ ∀ x : Vec l ℝ, (A *ᵥ x) ⬝ᵥ (A *ᵥ x) ≤ K * (x ⬝ᵥ x) := by
  refine ⟨∑ i, A i ⬝ᵥ A i, sum_nonneg fun i _ => dot_self_nonneg' _, fun x => ?_⟩
  rw [sum_mul, dotProduct]
  refine sum_le_sum fun i _ => ?_
  rw [← pow_two]
  exact dot_sq_le (A i) x

variable {n : ℕ} {md : ℝ → ℕ} {p : SmoothProblem n md} {dt t0 : ℝ} {N : ℕ}

theorem add_dot_le {k : ℕ} (a b : Vec k ℝ) : (a + b) ⬝ᵥ (a + b) ≤ 2 * (a ⬝ᵥ a) + 2 * (b ⬝ᵥ b) := by
  have h := dot_self_nonneg' (a - b)
  simp only [sub_dotProduct, dotProduct_sub, add_dotProduct, dotProduct_add] at h ⊢
  linarith

/-- Each state of a variation is bounded by the inputs before it. -/
theorem exists_state_bound (p : SmoothProblem n md) (t0 dt : ℝ) (j : ℕ) : ∃ K : ℝ, 0 ≤ K ∧
    ∀ (ex : ℕ → Vec n ℝ) (eu : (i : ℕ) → Vec (md (timeAt t0 dt i)) ℝ), ex 0 = 0 →
      (∀ i < j, ex (i + 1) = p.A (timeAt t0 dt i) *ᵥ ex i + p.B (timeAt t0 dt i) *ᵥ eu i) →
      ex j ⬝ᵥ ex j ≤ K * ∑ i ∈ range j, eu i ⬝ᵥ eu i := by
  induction j with
  | zero => exact ⟨0, le_rfl, fun ex eu h0 _ => by simp [h0]⟩
  | succ j ih =>
    obtain ⟨K, hK, ih⟩ := ih
    obtain ⟨a, ha, hA⟩ := exists_mulVec_bound (p.A (timeAt t0 dt j))
    obtain ⟨b, hb, hB⟩ := exists_mulVec_bound (p.B (timeAt t0 dt j))
    refine ⟨2 * (a * K) + 2 * b, by positivity, fun ex eu h0 hs => ?_⟩
    have h1 := ih ex eu h0 fun i hi => hs i (by omega)
    rw [hs j (by omega), sum_range_succ]
    have h2 := add_dot_le (p.A (timeAt t0 dt j) *ᵥ ex j) (p.B (timeAt t0 dt j) *ᵥ eu j)
    have h3 := hA (ex j)
    have h4 := hB (eu j)
    have h5 := mul_le_mul_of_nonneg_left h1 ha
    have h6 : 0 ≤ ∑ i ∈ range j, eu i ⬝ᵥ eu i := sum_nonneg fun _ _ => dot_self_nonneg' _
    have h7 := dot_self_nonneg' (eu j)
    have h8 : 0 ≤ a * K * (eu j ⬝ᵥ eu j) := by positivity
    have h9 : 0 ≤ b * ∑ i ∈ range j, eu i ⬝ᵥ eu i := by positivity
    nlinarith

/-- **C116** The constant `κ` exists for every problem. -/
theorem C116_state_bound (p : SmoothProblem n md) (t0 dt : ℝ) (N : ℕ) : ∃ κ : ℝ, 0 < κ ∧ p.StateBound t0 dt N κ := by
  choose K hK h using exists_state_bound p t0 dt
  refine ⟨∑ i ∈ range (N + 1), K i + 1, by have := sum_nonneg fun i (_ : i ∈ range (N + 1)) => hK i; linarith, fun ex eu h0 hs => ?_⟩
  have hle : ∀ j ≤ N, ex j ⬝ᵥ ex j ≤ K j * ∑ i ∈ range N, eu i ⬝ᵥ eu i := by
    intro j hj
    refine (h j ex eu h0 fun i hi => hs i (by omega)).trans (mul_le_mul_of_nonneg_left ?_ (hK j))
    exact sum_le_sum_of_subset_of_nonneg (range_mono hj) fun _ _ _ => dot_self_nonneg' _
  rw [sum_add_distrib, add_right_comm, ← sum_range_succ (fun i => ex i ⬝ᵥ ex i), add_mul, one_mul, sum_mul]
  exact add_le_add_left (sum_le_sum fun j hj => hle j (by simpa [Nat.lt_succ_iff] using hj)) _

section Exists
variable {lim : Option ((t : ℝ) → Vec (md t) ℝ × Vec (md t) ℝ)} {x0 : Vec n ℝ} {μ H : ℝ}

/-- Inputs of a horizon, continued by zero. -/
def extend (v : (i : Fin N) → Vec (md (timeAt t0 dt i)) ℝ) (i : ℕ) : Vec (md (timeAt t0 dt i)) ℝ :=
  if h : i < N then v ⟨i, h⟩ else 0

/-- The trajectory of the inputs `v`. -/
noncomputable def ctrlOfInputs (p : SmoothProblem n md) (lim : Option ((t : ℝ) → Vec (md t) ℝ × Vec (md t) ℝ)) (x0 : Vec n ℝ)
    (v : (i : Fin N) → Vec (md (timeAt t0 dt i)) ℝ) : Ctrl n (fun i => md (timeAt t0 dt i)) ℝ :=
  rollout N (stagesOf p.callbacks lim t0 dt N) x0 fun i _ => extend v i

theorem IsGrad2.continuousAt {a b : ℕ} {f : Vec a ℝ → Vec b ℝ → ℝ} {x : Vec a ℝ} {u : Vec b ℝ} {g : Vec a ℝ} {q : Vec b ℝ}
    (h : IsGrad2 f x u g q) : ContinuousAt (fun z : Vec a ℝ × Vec b ℝ => f z.1 z.2) (x, u) := by
  obtain ⟨D, hD, _⟩ := h
  exact hD.continuousAt

theorem continuous_extend (i : ℕ) : Continuous fun v : (i : Fin N) → Vec (md (timeAt t0 dt i)) ℝ => extend v i := by
  unfold extend
  split
  · next h => exact continuous_apply (⟨i, h⟩ : Fin N)
  · exact continuous_const

theorem continuous_state (i : ℕ) : Continuous fun v : (i : Fin N) → Vec (md (timeAt t0 dt i)) ℝ => (ctrlOfInputs p lim x0 v).x i := by
  induction i with
  | zero => exact continuous_const
  | succ i ih =>
    have h : (fun v : (i : Fin N) → Vec (md (timeAt t0 dt i)) ℝ => (ctrlOfInputs p lim x0 v).x (i + 1)) = fun v =>
        p.A (timeAt t0 dt i) *ᵥ (ctrlOfInputs p lim x0 v).x i + p.B (timeAt t0 dt i) *ᵥ extend v i + p.c (timeAt t0 dt i) := rfl
    rw [h]
    exact ((continuous_const.matrix_mulVec ih).add (continuous_const.matrix_mulVec (continuous_extend i))).add continuous_const

theorem continuous_cost (hp : p.Uniform t0 dt N μ H) :
    Continuous fun v : (i : Fin N) → Vec (md (timeAt t0 dt i)) ℝ => totalCost N (ctrlOfInputs p lim x0 v) := by
  have h : (fun v : (i : Fin N) → Vec (md (timeAt t0 dt i)) ℝ => totalCost N (ctrlOfInputs p lim x0 v)) = fun v =>
      ∑ i ∈ range N, p.l (timeAt t0 dt i) ((ctrlOfInputs p lim x0 v).x i) (extend v i) + p.φ (timeAt t0 dt N) ((ctrlOfInputs p lim x0 v).x N) := by
    ext v
    have hc : Consistent N (stagesOf p.callbacks lim t0 dt N) x0 (ctrlOfInputs p lim x0 v) := rollout_consistent _ _
    rw [totalCost_real, hc.term]
    congr 1
    exact sum_congr rfl fun i hi => hc.run i (mem_range.1 hi)
  rw [h]
  refine (continuous_finsetSum _ fun i hi => ?_).add ?_
  · have h1 : Continuous fun z : Vec n ℝ × Vec (md (timeAt t0 dt i)) ℝ => p.l (timeAt t0 dt i) z.1 z.2 :=
      continuous_iff_continuousAt.2 fun z => ((hp.run i (mem_range.1 hi)).grad z.1 z.2).continuousAt
    exact h1.comp ((continuous_state i).prodMk (continuous_extend i))
  · have h1 : Continuous fun z : Vec n ℝ × Vec 0 ℝ => p.φ (timeAt t0 dt N) z.1 :=
      continuous_iff_continuousAt.2 fun z => (hp.term.grad z.1 z.2).continuousAt
    exact h1.comp ((continuous_state N).prodMk (continuous_const (y := (0 : Vec 0 ℝ))))

theorem dot_ge {k : ℕ} (a b : Vec k ℝ) {ε : ℝ} (hε : 0 < ε) : -(1 / (2 * ε) * (a ⬝ᵥ a)) - ε / 2 * (b ⬝ᵥ b) ≤ a ⬝ᵥ b := by
  have h := dot_self_nonneg' (a + ε • b)
  simp only [add_dotProduct, dotProduct_add, smul_dotProduct, dotProduct_smul, smul_eq_mul, dotProduct_comm b a] at h
  have e : a ⬝ᵥ b + 1 / (2 * ε) * (a ⬝ᵥ a) + ε / 2 * (b ⬝ᵥ b) = (1 / (2 * ε)) * (a ⬝ᵥ a + ε * (a ⬝ᵥ b) + (ε * (a ⬝ᵥ b) + ε * (ε * (b ⬝ᵥ b)))) := by
    field_simp; ring
  have := mul_nonneg (show 0 ≤ 1 / (2 * ε) by positivity) h
  linarith

/-- The cost grows quadratically with the inputs. -/
theorem coercive (hp : p.Uniform t0 dt N μ H) (hμ : 0 < μ) : ∃ b : ℝ, ∀ c, Consistent N (stagesOf p.callbacks lim t0 dt N) x0 c →
    b + μ / 4 * ∑ i ∈ range N, c.u i ⬝ᵥ c.u i ≤ totalCost N c := by
  obtain ⟨κ, hκ0, hκ⟩ := C116_state_bound p t0 dt N
  let cfg0 : Config ℝ := defaultConfig [] 0 0
  have hR := uniform_region (cfg := cfg0) (lim := lim) (x0 := x0) hp hμ
  set S := stagesOf p.callbacks lim t0 dt N with hS
  set c0 : Ctrl n (fun i => md (timeAt t0 dt i)) ℝ := ctrlOfInputs (N := N) p lim x0 0 with hc0d
  have hc0 : Consistent N S x0 c0 := rollout_consistent _ _
  let b0 : Derivs n (fun i => md (timeAt t0 dt i)) ℝ :=
    { F := fun _ => { Fx := 0, Fu := 0 }, L := fun _ => { Lx := 0, Lu := 0, Lxx := 0, Luu := 0, Lxu := 0 }, V := { Vx := 0, Vxx := 0 } }
  set d := calcDerivs N cfg0 S c0 b0 with hd
  set G := ∑ j ∈ range N, ((d.L j).Lx ⬝ᵥ (d.L j).Lx + (d.L j).Lu ⬝ᵥ (d.L j).Lu) + d.V.Vx ⬝ᵥ d.V.Vx with hG
  have hε : 0 < μ / (2 * κ) := by positivity
  refine ⟨totalCost N c0 - 1 / (2 * (μ / (2 * κ))) * G, fun c hc => ?_⟩
  have h1 := (hR.cost c0 b0 c hc0 hc).1
  have hv := devOf_isVar (hR.aff c0 b0 hc0) hc0 hc
  obtain ⟨h2, h3⟩ := (smooth_isVar c0 b0).1 hv
  have h4 := hκ _ _ h2 h3
  have hin : inSq N (devOf c0 c) = ∑ i ∈ range N, c.u i ⬝ᵥ c.u i := by
    unfold inSq
    refine sum_congr rfl fun i hi => ?_
    have : c0.u i = 0 := by
      show extend (N := N) (md := md) (t0 := t0) (dt := dt) 0 i = 0
      unfold extend
      split <;> rfl
    simp [devOf, this]
  have h5 : -(1 / (2 * (μ / (2 * κ))) * G) - μ / (2 * κ) / 2 * devSq N (devOf c0 c) ≤ mdlLin N d (devOf c0 c) := by
    rw [hG, devSq, mdlLin]
    have a1 : ∑ j ∈ range N, (-(1 / (2 * (μ / (2 * κ))) * ((d.L j).Lx ⬝ᵥ (d.L j).Lx + (d.L j).Lu ⬝ᵥ (d.L j).Lu)) -
        μ / (2 * κ) / 2 * ((devOf c0 c).x j ⬝ᵥ (devOf c0 c).x j + (devOf c0 c).u j ⬝ᵥ (devOf c0 c).u j)) ≤
        ∑ j ∈ range N, ((d.L j).Lx ⬝ᵥ (devOf c0 c).x j + (d.L j).Lu ⬝ᵥ (devOf c0 c).u j) := by
      refine sum_le_sum fun j _ => ?_
      have b1 := dot_ge (d.L j).Lx ((devOf c0 c).x j) hε
      have b2 := dot_ge (d.L j).Lu ((devOf c0 c).u j) hε
      linarith
    have a2 := dot_ge d.V.Vx ((devOf c0 c).x N) hε
    rw [sum_sub_distrib, sum_neg_distrib, ← mul_sum, ← mul_sum] at a1
    linarith
  have h6 : devSq N (devOf c0 c) ≤ κ * inSq N (devOf c0 c) := h4
  have h7 : μ / (2 * κ) / 2 * devSq N (devOf c0 c) ≤ μ / 4 * inSq N (devOf c0 c) := by
    refine (mul_le_mul_of_nonneg_left h6 (by positivity)).trans (le_of_eq ?_)
    field_simp; ring_nf
  rw [← hin]
  linarith

/-- Every trajectory is that of its inputs. -/
theorem consistent_ctrlOfInputs {c : Ctrl n (fun i => md (timeAt t0 dt i)) ℝ} (hc : Consistent N (stagesOf p.callbacks lim t0 dt N) x0 c) :
    c.out N = (ctrlOfInputs p lim x0 fun i : Fin N => c.u i).out N := by
  refine consistent_ext hc (rollout_consistent _ _) fun j hj => ?_
  show c.u j = extend (fun i : Fin N => c.u i) j
  rw [extend, dif_pos hj]

/-- **C116** A trajectory of least cost exists. -/
theorem C116_exists (hp : p.Uniform t0 dt N μ H) (hμ : 0 < μ) (x0 : Vec n ℝ) : ∃ ds, IsTrajectory p.callbacks t0 dt N x0 ds ∧
    ∀ d, IsTrajectory p.callbacks t0 dt N x0 d → ds.costs.sum ≤ d.costs.sum := by
  obtain ⟨b, hb⟩ := coercive (lim := none) (x0 := x0) hp hμ
  let J : ((i : Fin N) → Vec (md (timeAt t0 dt i)) ℝ) → ℝ := fun v => totalCost N (ctrlOfInputs p none x0 v)
  have hJ : Continuous J := continuous_cost hp
  set R := 4 / μ * (J 0 - b) with hR
  have hlow : ∀ v, b + μ / 4 * ∑ i : Fin N, v i ⬝ᵥ v i ≤ J v := by
    intro v
    refine le_trans (le_of_eq ?_) (hb _ (rollout_consistent _ _))
    rw [← Fin.sum_univ_eq_sum_range (fun i => (ctrlOfInputs p none x0 v).u i ⬝ᵥ (ctrlOfInputs p none x0 v).u i)]
    congr 2
    refine sum_congr rfl fun i _ => ?_
    show _ = extend v i ⬝ᵥ extend v i
    rw [extend, dif_pos i.2]
  have hcpt : IsCompact {v : (i : Fin N) → Vec (md (timeAt t0 dt i)) ℝ | J v ≤ J 0} := by
    refine Metric.isCompact_of_isClosed_isBounded (isClosed_le hJ continuous_const) ?_
    refine (Metric.isBounded_iff_subset_closedBall 0).2 ⟨√R, fun v hv => ?_⟩
    rw [mem_closedBall_zero_iff, pi_norm_le_iff_of_nonneg (Real.sqrt_nonneg _)]
    intro i
    rw [pi_norm_le_iff_of_nonneg (Real.sqrt_nonneg _)]
    intro k
    rw [Real.norm_eq_abs]
    refine Real.abs_le_sqrt ?_
    have h1 := hlow v
    have h2 : v i k ^ 2 ≤ v i ⬝ᵥ v i := by
      rw [pow_two]
      exact single_le_sum (f := fun k => v i k * v i k) (fun _ _ => mul_self_nonneg _) (mem_univ k)
    have h3 : v i ⬝ᵥ v i ≤ ∑ i, v i ⬝ᵥ v i := single_le_sum (f := fun i => v i ⬝ᵥ v i) (fun _ _ => dot_self_nonneg' _) (mem_univ i)
    have h4 : μ / 4 * ∑ i, v i ⬝ᵥ v i ≤ J 0 - b := by
      have : J v ≤ J 0 := hv
      linarith
    rw [hR, div_mul_eq_mul_div, le_div_iff₀ hμ]
    nlinarith
  obtain ⟨v, hv, hmin⟩ := hcpt.exists_isMinOn ⟨0, le_refl (J 0)⟩ hJ.continuousOn
  refine ⟨(ctrlOfInputs p none x0 v).out N, out_isTrajectory (rollout_consistent _ _), fun d hd => ?_⟩
  obtain ⟨c, hc, rfl⟩ := hd.exists_ctrl (lim := none)
  rw [consistent_ctrlOfInputs hc, totalCost_out, totalCost_out]
  by_cases h : J (fun i => c.u i) ≤ J 0
  · exact hmin h
  · exact (show J v ≤ J 0 from hv).trans (not_le.1 h).le

end Exists

section Returns
variable {L : LLT ℝ} {cfg : Config ℝ} {lim : Option ((t : ℝ) → Vec (md t) ℝ × Vec (md t) ℝ)} {o : Obj n ℝ} {x0 : Vec n ℝ}
  {us : List (Σ k : ℕ, Vec k ℝ)} {scratch : Scratch n (fun i => md (timeAt t0 dt i)) ℝ}

/-- **C116** Under the hypotheses of C114 and with a positive `cost_update_thre`, `solve` returns `true` or ends at a trajectory of least
cost whenever enough iterations are allowed. -/
theorem C116_returns (hL : L.Exact) {μ H a : ℝ} (hμ : 0 < μ) (hμH : μ ≤ H) (hp : p.Uniform t0 dt us.length μ H)
    (hw : cfg.withConstraint = false) (h2 : cfg.useSecond = false) (h1 : cfg.regType = 1) (hf : 1 < cfg.lambdaFactor)
    (hlm : 0 < cfg.lambdaMin) (hl0 : 0 ≤ cfg.initialLambda) (hdl0 : 0 < cfg.initialDlambda) (hth : 0 < cfg.costUpdateThre)
    (hr0 : 0 ≤ cfg.costUpdateRatioThre) (hr1 : cfg.costUpdateRatioThre ≤ 1 / 2)
    (hsteps : ∀ x ∈ cfg.alphaList, a ≤ x ∧ x ≤ 1) (hmem : a ∈ cfg.alphaList) (ha0 : 0 < a) (haH : a * H ≤ μ)
    (hN : (us.length : ℤ) = cfg.horizon) (hd : DimsOk md t0 dt us)
    {d0 : ControlData n ℝ} (hd0 : IsTrajectory p.callbacks t0 dt us.length x0 d0) (hu : d0.us = us) :
    ∃ K : ℤ, ∀ maxIter ≥ K, (solve L p.callbacks lim dt { cfg with maxIter := maxIter } o t0 scratch x0 us).2 = .ok true ∨
      ∀ d, IsTrajectory p.callbacks t0 dt us.length x0 d →
        (solve L p.callbacks lim dt { cfg with maxIter := maxIter } o t0 scratch x0 us).1.control.costs.sum ≤ d.costs.sum := by
  obtain ⟨ds, hds, hmin⟩ := C116_exists hp hμ x0
  obtain ⟨K, hK⟩ := exists_nat_gt ((d0.costs.sum - ds.costs.sum) / cfg.costUpdateThre + 1)
  refine ⟨K, fun maxIter hm => ?_⟩
  refine C114_terminates (cfg := { cfg with maxIter := maxIter }) hL hμ hμH hp hw h2 h1 hf hlm hl0 hdl0 hth.le hr0 hr1 hsteps hmem ha0 haH hN
    hd hd0 hu hmin ?_
  have h3 : (K : ℝ) ≤ (maxIter.toNat : ℝ) := by exact_mod_cast (Int.le_toNat (by omega)).2 hm
  rw [← div_lt_iff₀ hth]
  show _ < (maxIter.toNat : ℝ) - 1
  linarith

end Returns

end Nmpc.DDP
