import Verif.Problems.Agree
import Verif.DDP.ClosedLoopProps
import Verif.FMPC.Mpc

/-!
# Time-invariant linear-quadratic problems whose terminal cost solves the Riccati equation (for C136)

Specification: matrices, the algebraic Riccati equation and the static feedback; and the algebra behind C136.
-/

set_option linter.unusedSectionVars false

namespace Nmpc.Lqr

open Matrix Finset
open DDP (timeAt LQProblem IsTrajectory tmul_dot tmul_dot')

/-- `x' = A x + B u`, running cost `½xᵀQx + xᵀMu + ½uᵀRu` and a matrix `P` for the terminal cost `½xᵀPx`. -/
structure Data (n m : ℕ) where
  A : Mat n n ℝ
  B : Mat n m ℝ
  Q : Mat n n ℝ
  M : Mat n m ℝ
  R : Mat m m ℝ
  P : Mat n n ℝ
  symmQ : Q.IsSymm

/-- The running cost is convex, strictly in the input, and the terminal cost is convex. -/
structure Data.Convex {n m : ℕ} (D : Data n m) : Prop where
  stage : ∀ (x : Vec n ℝ) (u : Vec m ℝ), 0 ≤ x ⬝ᵥ D.Q *ᵥ x + 2 * (x ⬝ᵥ D.M *ᵥ u) + u ⬝ᵥ D.R *ᵥ u
  input : D.R.PosDef
  term : D.P.PosSemidef

/-- The discrete algebraic Riccati equation `P = Q + AᵀPA - (BᵀPA + Mᵀ)ᵀ (R + BᵀPB)⁻¹ (BᵀPA + Mᵀ)` with its feedback
`K = -(R + BᵀPB)⁻¹ (BᵀPA + Mᵀ)`. -/
structure Data.Riccati {n m : ℕ} (D : Data n m) (K : Mat m n ℝ) : Prop where
  gain : K = -((D.R + D.Bᵀ * D.P * D.B)⁻¹ * (D.Bᵀ * D.P * D.A + D.Mᵀ))
  fix : D.P = D.Q + D.Aᵀ * D.P * D.A - (D.Bᵀ * D.P * D.A + D.Mᵀ)ᵀ * (D.R + D.Bᵀ * D.P * D.B)⁻¹ * (D.Bᵀ * D.P * D.A + D.Mᵀ)

variable {n m : ℕ} {D : Data n m} {K : Mat m n ℝ} {dt t0 : ℝ} {x0 : Vec n ℝ} {N : ℕ}

/-- The problem given to the solvers. -/
noncomputable def Data.problem (D : Data n m) (h : D.Convex) : LQProblem n (fun _ => m) where
  A _ := D.A
  B _ := D.B
  c _ := 0
  Q _ := D.Q
  M _ := D.M
  R _ := D.R
  q _ := 0
  r _ := 0
  e _ := 0
  Qf _ := D.P
  qf _ := 0
  ef _ := 0
  symmQ _ := D.symmQ
  symmR _ := (posDef_iff.1 h.input).1
  symmQf _ := (posSemidef_iff.1 h.term).1

theorem Data.problem_convex (h : D.Convex) : (D.problem h).Convex := ⟨fun _ => h.stage, fun _ => h.input, fun _ => h.term⟩

/-- The running cost. -/
noncomputable def Data.run (D : Data n m) (x : Vec n ℝ) (u : Vec m ℝ) : ℝ :=
  1 / 2 * (x ⬝ᵥ D.Q *ᵥ x) + x ⬝ᵥ D.M *ᵥ u + 1 / 2 * (u ⬝ᵥ D.R *ᵥ u)

/-- The terminal cost. -/
noncomputable def Data.value (D : Data n m) (x : Vec n ℝ) : ℝ := 1 / 2 * (x ⬝ᵥ D.P *ᵥ x)

/-- `R + BᵀPB`. -/
noncomputable def Data.H (D : Data n m) : Mat m m ℝ := D.R + D.Bᵀ * D.P * D.B

theorem Data.Convex.posDef (h : D.Convex) : D.H.PosDef := by
  obtain ⟨h1, h2⟩ := posDef_iff.1 h.input
  obtain ⟨h3, h4⟩ := posSemidef_iff.1 h.term
  refine posDef_iff.2 ⟨?_, fun v hv => ?_⟩
  · unfold Data.H IsSymm
    rw [transpose_add, h1.eq, transpose_mul, transpose_mul, h3.eq, transpose_transpose, Matrix.mul_assoc]
  · unfold Data.H
    rw [add_mulVec, dotProduct_add, Matrix.mul_assoc, ← mulVec_mulVec, ← mulVec_mulVec, ← dotProduct_comm (D.Bᵀ *ᵥ _), tmul_dot,
      dotProduct_comm (D.P *ᵥ _)]
    exact add_pos_of_pos_of_nonneg (h2 v hv) (h4 _)

theorem Data.Riccati.gain' (h : D.Convex) (hK : D.Riccati K) : D.H * K = -(D.Bᵀ * D.P * D.A + D.Mᵀ) := by
  have hu : IsUnit D.H.det := (Matrix.isUnit_iff_isUnit_det _).1 h.posDef.isUnit
  rw [hK.gain, Matrix.mul_neg, ← Matrix.mul_assoc]
  rw [show D.R + D.Bᵀ * D.P * D.B = D.H from rfl, Matrix.mul_nonsing_inv _ hu, Matrix.one_mul]

theorem Data.Riccati.fix' (hK : D.Riccati K) : D.P = D.Q + D.Aᵀ * D.P * D.A + (D.Bᵀ * D.P * D.A + D.Mᵀ)ᵀ * K := by
  rw [hK.gain, Matrix.mul_neg, ← sub_eq_add_neg, ← Matrix.mul_assoc]
  exact hK.fix

/-- Completing the square. -/
theorem Data.square (h : D.Convex) (hK : D.Riccati K) (x : Vec n ℝ) (u : Vec m ℝ) :
    D.run x u + D.value (D.A *ᵥ x + D.B *ᵥ u) = D.value x + 1 / 2 * ((u - K *ᵥ x) ⬝ᵥ D.H *ᵥ (u - K *ᵥ x)) := by
  have hs := (posDef_iff.1 h.posDef).1
  have hp := (posSemidef_iff.1 h.term).1
  have g : ∀ v : Vec m ℝ, v ⬝ᵥ D.H *ᵥ (K *ᵥ x) = -((D.B *ᵥ v) ⬝ᵥ D.P *ᵥ (D.A *ᵥ x) + x ⬝ᵥ D.M *ᵥ v) := by
    intro v
    rw [mulVec_mulVec, hK.gain' h, neg_mulVec, dotProduct_neg, add_mulVec, dotProduct_add, Matrix.mul_assoc, ← mulVec_mulVec,
      ← mulVec_mulVec, tmul_dot', tmul_dot', dotProduct_comm (D.P *ᵥ _)]
  have f : x ⬝ᵥ D.P *ᵥ x = x ⬝ᵥ D.Q *ᵥ x + (D.A *ᵥ x) ⬝ᵥ D.P *ᵥ (D.A *ᵥ x) +
      ((D.B *ᵥ (K *ᵥ x)) ⬝ᵥ D.P *ᵥ (D.A *ᵥ x) + x ⬝ᵥ D.M *ᵥ (K *ᵥ x)) := by
    conv_lhs => rw [hK.fix']
    rw [add_mulVec, add_mulVec, dotProduct_add, dotProduct_add, Matrix.mul_assoc, ← mulVec_mulVec, ← mulVec_mulVec, tmul_dot',
      dotProduct_comm (D.P *ᵥ _), ← mulVec_mulVec, tmul_dot', add_mulVec, dotProduct_add, Matrix.mul_assoc, ← mulVec_mulVec,
      ← mulVec_mulVec, tmul_dot', tmul_dot', dotProduct_comm (D.P *ᵥ _)]
  have k : u ⬝ᵥ D.H *ᵥ u = u ⬝ᵥ D.R *ᵥ u + (D.B *ᵥ u) ⬝ᵥ D.P *ᵥ (D.B *ᵥ u) := by
    unfold Data.H
    rw [add_mulVec, dotProduct_add, Matrix.mul_assoc, ← mulVec_mulVec, ← mulVec_mulVec, tmul_dot', dotProduct_comm (D.P *ᵥ _)]
  have e := g (K *ᵥ x)
  have e' := g u
  have e'' := symm_dot hs (K *ᵥ x) u
  have e3 := symm_dot hp (D.A *ᵥ x) (D.B *ᵥ u)
  unfold Data.run Data.value
  simp only [mulVec_add, mulVec_sub, dotProduct_add, dotProduct_sub, add_dotProduct, sub_dotProduct]
  rw [f, e3]
  linarith

/-- The cost of any inputs over `N` steps. -/
theorem Data.sum_square (h : D.Convex) (hK : D.Riccati K) {y : ℕ → Vec n ℝ} {v : ℕ → Vec m ℝ} (N : ℕ)
    (hy : ∀ k < N, y (k + 1) = D.A *ᵥ y k + D.B *ᵥ v k) :
    ∑ k ∈ range N, D.run (y k) (v k) + D.value (y N) =
      D.value (y 0) + ∑ k ∈ range N, 1 / 2 * ((v k - K *ᵥ y k) ⬝ᵥ D.H *ᵥ (v k - K *ᵥ y k)) := by
  induction N with
  | zero => simp
  | succ N ih =>
    have := ih fun k hk => hy k (by omega)
    have h2 := D.square h hK (y N) (v N)
    rw [sum_range_succ, sum_range_succ, hy N (by omega)]
    linarith

/-- The states under the feedback. -/
noncomputable def Data.states (D : Data n m) (K : Mat m n ℝ) (x0 : Vec n ℝ) (k : ℕ) : Vec n ℝ := (D.A + D.B * K) ^ k *ᵥ x0

theorem Data.states_succ (k : ℕ) : D.states K x0 (k + 1) = D.A *ᵥ D.states K x0 k + D.B *ᵥ (K *ᵥ D.states K x0 k) := by
  unfold Data.states
  rw [pow_succ', ← mulVec_mulVec, add_mulVec, mulVec_mulVec (N := K)]

/-- The trajectory over `N` steps under the feedback. -/
noncomputable def Data.plan (D : Data n m) (h : D.Convex) (K : Mat m n ℝ) (t0 dt : ℝ) (N : ℕ) (x0 : Vec n ℝ) : DDP.ControlData n ℝ :=
  (Agree.ctrlOf (D.problem h) t0 dt N (D.states K x0) (fun i => K *ᵥ D.states K x0 i)).out N

theorem Data.run_eq (h : D.Convex) (t : ℝ) (x : Vec n ℝ) (u : Vec m ℝ) : (D.problem h).callbacks.runningCost t x u = D.run x u := by
  simp [LQProblem.callbacks, Data.problem, Data.run]

theorem Data.term_eq (h : D.Convex) (t : ℝ) (x : Vec n ℝ) : (D.problem h).callbacks.terminalCost t x = D.value x := by
  simp [LQProblem.callbacks, Data.problem, Data.value]

theorem Data.state_eq (h : D.Convex) (t : ℝ) (x : Vec n ℝ) (u : Vec m ℝ) :
    (D.problem h).callbacks.stateEq t x u = D.A *ᵥ x + D.B *ᵥ u := by
  simp [LQProblem.callbacks, Data.problem]

theorem Data.plan_consistent (h : D.Convex) : DDP.Consistent N (DDP.stagesOf (D.problem h).callbacks none t0 dt N) x0
    (Agree.ctrlOf (D.problem h) t0 dt N (D.states K x0) (fun i => K *ᵥ D.states K x0 i)) := by
  refine Agree.ctrlOf_consistent (by simp [Data.states]) fun i hi => ?_
  rw [D.state_eq h, D.states_succ]

theorem Data.plan_traj (h : D.Convex) : IsTrajectory (D.problem h).callbacks t0 dt N x0 (D.plan h K t0 dt N x0) :=
  DDP.out_isTrajectory (D.plan_consistent h)

theorem Data.cost_eq (h : D.Convex) (hK : D.Riccati K) {c : DDP.Ctrl n (fun _ => m) ℝ}
    (hc : DDP.Consistent N (DDP.stagesOf (D.problem h).callbacks none t0 dt N) x0 c) :
    (c.out N).costs.sum = D.value x0 + ∑ k ∈ range N, 1 / 2 * ((c.u k - K *ᵥ c.x k) ⬝ᵥ D.H *ᵥ (c.u k - K *ᵥ c.x k)) := by
  have h1 := Agree.consistent_cost hc
  rw [h1]
  simp only [D.run_eq h, D.term_eq h]
  have h2 : ∀ k < N, c.x (k + 1) = D.A *ᵥ c.x k + D.B *ᵥ c.u k := fun k hk => by
    rw [hc.step k hk]
    exact D.state_eq h _ _ _
  have h3 := D.sum_square h hK N h2
  rw [hc.start] at h3
  exact h3

theorem Data.plan_cost (h : D.Convex) (hK : D.Riccati K) : (D.plan h K t0 dt N x0).costs.sum = D.value x0 := by
  rw [Data.plan, D.cost_eq h hK (D.plan_consistent h)]
  simp [Agree.ctrlOf]

theorem Data.quad_nonneg (h : D.Convex) (v : Vec m ℝ) : 0 ≤ 1 / 2 * (v ⬝ᵥ D.H *ᵥ v) := by
  have := h.posDef.posSemidef
  have := (posSemidef_iff.1 this).2 v
  positivity

theorem Data.quad_zero (h : D.Convex) {v : Vec m ℝ} (hv : 1 / 2 * (v ⬝ᵥ D.H *ᵥ v) = 0) : v = 0 := by
  by_contra hne
  have := (posDef_iff.1 h.posDef).2 v hne
  linarith

/-- The trajectory under the feedback is strictly cheaper than all others. -/
theorem Data.plan_min (h : D.Convex) (hK : D.Riccati K) {d : DDP.ControlData n ℝ} (hd : IsTrajectory (D.problem h).callbacks t0 dt N x0 d) :
    (D.plan h K t0 dt N x0).costs.sum ≤ d.costs.sum ∧
      (d.costs.sum = (D.plan h K t0 dt N x0).costs.sum → d = D.plan h K t0 dt N x0) := by
  obtain ⟨c, hc, rfl⟩ := hd.exists_ctrl (lim := none)
  rw [D.plan_cost h hK, D.cost_eq h hK hc]
  have hnn : ∀ k ∈ range N, 0 ≤ 1 / 2 * ((c.u k - K *ᵥ c.x k) ⬝ᵥ D.H *ᵥ (c.u k - K *ᵥ c.x k)) := fun k _ => D.quad_nonneg h _
  refine ⟨by linarith [sum_nonneg hnn], fun heq => ?_⟩
  have hz := (sum_eq_zero_iff_of_nonneg hnn).1 (by linarith)
  have hu : ∀ k < N, c.u k = K *ᵥ c.x k := fun k hk => sub_eq_zero.1 (D.quad_zero h (hz k (mem_range.2 hk)))
  have hx : ∀ k ≤ N, c.x k = D.states K x0 k := by
    intro k
    induction k with
    | zero => intro _; rw [hc.start]; simp [Data.states]
    | succ k ih =>
      intro hk
      rw [hc.step k (by omega), D.states_succ, ← ih (by omega), ← hu k (by omega)]
      exact D.state_eq h _ _ _
  have hp := D.plan_consistent (K := K) (x0 := x0) (t0 := t0) (dt := dt) (N := N) h
  have hu' : ∀ k < N, c.u k = K *ᵥ D.states K x0 k := fun k hk => by rw [hu k hk, hx k hk.le]
  refine DDP.out_congr hx hu' fun j hj => ?_
  rcases Nat.lt_or_eq_of_le hj with hj | rfl
  · rw [hc.run j hj, hp.run j hj, hx j hj.le, hu' j hj]
    rfl
  · rw [hc.term, hp.term, hx j le_rfl]
    rfl

end Nmpc.Lqr
