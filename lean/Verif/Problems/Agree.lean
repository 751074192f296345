import Verif.DDP.BoxKktProps
import Verif.FMPC.OptimalProps
import Verif.CGMRES.Gradient

/-!
# C134: DDP, FMPC and C/GMRES on the same convex linear-quadratic problem (exact arithmetic)
-/

set_option linter.unusedSectionVars false

namespace Nmpc.Agree

open Matrix Finset
open DDP (timeAt LQProblem IsTrajectory)

/-! ## The problem handed to FMPC -/

/-- The problem given to FMPC: the same dynamics and terminal cost as for DDP, no inequality constraints, and the running cost divided by
`dt`, since FMPC multiplies the running cost by `dt` (FmpcSolver.hpp 425-426, 575-577, 866) and DDP does not (DDPSolver.hpp 91). -/
noncomputable def fmpcOf {n : ℕ} {md : ℝ → ℕ} (p : LQProblem n md) (dt : ℝ) : FMPC.Callbacks n md (fun _ => 0) where
  stateEq t x u := p.A t *ᵥ x + p.B t *ᵥ u + p.c t
  runningCost t x u := (1 / 2 * (x ⬝ᵥ p.Q t *ᵥ x) + x ⬝ᵥ p.M t *ᵥ u + 1 / 2 * (u ⬝ᵥ p.R t *ᵥ u) + p.q t ⬝ᵥ x + p.r t ⬝ᵥ u + p.e t) / dt
  terminalCost t x := 1 / 2 * (x ⬝ᵥ p.Qf t *ᵥ x) + p.qf t ⬝ᵥ x + p.ef t
  ineqConst _ _ _ := fun j => j.elim0
  stateEqDeriv t _ _ _ := { Fx := p.A t, Fu := p.B t }
  ineqConstDeriv _ _ _ b := b
  runningCostDeriv t x u _ :=
    { Lx := dt⁻¹ • (p.Q t *ᵥ x + p.M t *ᵥ u + p.q t), Lu := dt⁻¹ • ((p.M t)ᵀ *ᵥ x + p.R t *ᵥ u + p.r t)
      Lxx := dt⁻¹ • p.Q t, Luu := dt⁻¹ • p.R t, Lxu := dt⁻¹ • p.M t }
  terminalCostDeriv t x _ := { Vx := p.Qf t *ᵥ x + p.qf t, Vxx := p.Qf t }

variable {n : ℕ} {md : ℝ → ℕ} {p : LQProblem n md} {dt t0 : ℝ} {x0 : Vec n ℝ} {N : ℕ}

/-- The data of the problem on the time grid. -/
noncomputable def dataOf (p : LQProblem n md) (t0 dt : ℝ) (N : ℕ) : FMPC.LQData n (fun i => md (timeAt t0 dt i)) where
  A i := p.A (timeAt t0 dt i)
  B i := p.B (timeAt t0 dt i)
  a i := p.c (timeAt t0 dt i)
  Q i := dt⁻¹ • p.Q (timeAt t0 dt i)
  M i := dt⁻¹ • p.M (timeAt t0 dt i)
  R i := dt⁻¹ • p.R (timeAt t0 dt i)
  q i := dt⁻¹ • p.q (timeAt t0 dt i)
  r i := dt⁻¹ • p.r (timeAt t0 dt i)
  Qf := p.Qf (timeAt t0 dt N)
  qf := p.qf (timeAt t0 dt N)

theorem fmpcOf_isLQ (N : ℕ) : FMPC.IsLQ (FMPC.stagesOf (fmpcOf p dt) t0 dt N) (dataOf p t0 dt N) where
  none _ := rfl
  f _ _ _ := rfl
  df _ _ _ _ := rfl
  dl i x u b := by
    simp only [FMPC.stagesOf, fmpcOf, dataOf, smul_add, smul_mulVec, transpose_smul]
  dφ _ _ := rfl

theorem dataOf_convex (hp : p.Convex) (hdt : 0 < dt) (N : ℕ) : (dataOf p t0 dt N).Convex N where
  Q i _ := (p.symmQ _).smul _
  R i _ := (hp.input _).smul (inv_pos.2 hdt)
  joint i _ y z := by
    simp only [dataOf, smul_mulVec, dotProduct_smul, smul_eq_mul]
    have := mul_nonneg (inv_nonneg.2 hdt.le) (hp.stage (timeAt t0 dt i) y z)
    linarith
  Qf := hp.term _

theorem quad_gap {k : ℕ} {Q : Mat k k ℝ} (hQ : Q.IsSymm) (x y : Vec k ℝ) :
    y ⬝ᵥ Q *ᵥ y = x ⬝ᵥ Q *ᵥ x + 2 * ((Q *ᵥ x) ⬝ᵥ (y - x)) + (y - x) ⬝ᵥ Q *ᵥ (y - x) := by
  have h : x ⬝ᵥ Q *ᵥ y = y ⬝ᵥ Q *ᵥ x := by
    rw [dotProduct_mulVec, ← mulVec_transpose, hQ.eq, dotProduct_comm]
  simp only [mulVec_sub, dotProduct_sub, sub_dotProduct]
  rw [dotProduct_comm (Q *ᵥ x) y, dotProduct_comm (Q *ᵥ x) x, h]
  ring

theorem fmpcOf_convex (hp : p.Convex) (hdt : 0 < dt) : FMPC.ConvexProblem (fmpcOf p dt) where
  dyn t x u x' u' b := by
    simp only [fmpcOf, mulVec_sub]
    abel
  ineq _ _ _ _ _ _ j := j.elim0
  cost t x u x' u' b := by
    simp only [fmpcOf]
    rw [smul_dotProduct, smul_dotProduct, smul_eq_mul, smul_eq_mul, div_eq_inv_mul (_ + _) dt,
      div_eq_inv_mul (_ + _) dt, ← mul_add, ← mul_add]
    refine mul_le_mul_of_nonneg_left ?_ (inv_nonneg.2 hdt.le)
    have h1 := quad_gap (p.symmQ t) x x'
    have h2 := quad_gap (p.symmR t) u u'
    have h3 := hp.stage t (x' - x) (u' - u)
    have h4 : x' ⬝ᵥ p.M t *ᵥ u' = x ⬝ᵥ p.M t *ᵥ u + (p.M t *ᵥ u) ⬝ᵥ (x' - x) + ((p.M t)ᵀ *ᵥ x) ⬝ᵥ (u' - u) +
        (x' - x) ⬝ᵥ p.M t *ᵥ (u' - u) := by
      rw [mulVec_transpose, ← dotProduct_mulVec, dotProduct_comm (p.M t *ᵥ u)]
      simp only [mulVec_sub, dotProduct_sub, sub_dotProduct]
      ring
    simp only [add_dotProduct]
    have h5 : p.q t ⬝ᵥ x' = p.q t ⬝ᵥ x + p.q t ⬝ᵥ (x' - x) := by rw [dotProduct_sub]; ring
    have h6 : p.r t ⬝ᵥ u' = p.r t ⬝ᵥ u + p.r t ⬝ᵥ (u' - u) := by rw [dotProduct_sub]; ring
    rw [h1, h2, h4, h5, h6]
    linarith
  term t x x' b := by
    simp only [fmpcOf, add_dotProduct]
    have h1 := quad_gap (p.symmQf t) x x'
    have h2 := (hp.term t).dotProduct_mulVec_nonneg (x' - x)
    simp only [star_trivial] at h2
    have h5 : p.qf t ⬝ᵥ x' = p.qf t ⬝ᵥ x + p.qf t ⬝ᵥ (x' - x) := by rw [dotProduct_sub]; ring
    rw [h1, h5]
    linarith

/-! ## Trajectories of the two models -/

/-- The control data made of states and inputs. -/
noncomputable def ctrlOf (p : LQProblem n md) (t0 dt : ℝ) (N : ℕ) (x : ℕ → Vec n ℝ) (u : (i : ℕ) → Vec (md (timeAt t0 dt i)) ℝ) :
    DDP.Ctrl n (fun i => md (timeAt t0 dt i)) ℝ where
  x := x
  u := u
  cost i := if i < N then p.callbacks.runningCost (timeAt t0 dt i) (x i) (u i) else p.callbacks.terminalCost (timeAt t0 dt N) (x N)

theorem ctrlOf_consistent {x : ℕ → Vec n ℝ} {u : (i : ℕ) → Vec (md (timeAt t0 dt i)) ℝ} (h0 : x 0 = x0)
    (hs : ∀ i < N, x (i + 1) = p.callbacks.stateEq (timeAt t0 dt i) (x i) (u i)) :
    DDP.Consistent N (DDP.stagesOf p.callbacks none t0 dt N) x0 (ctrlOf p t0 dt N x u) where
  start := h0
  step i hi := hs i hi
  run i hi := by simp only [ctrlOf, if_pos hi]; rfl
  term := by simp only [ctrlOf, lt_irrefl, if_false]; rfl

theorem consistent_cost {c : DDP.Ctrl n (fun i => md (timeAt t0 dt i)) ℝ}
    (h : DDP.Consistent N (DDP.stagesOf p.callbacks none t0 dt N) x0 c) :
    (c.out N).costs.sum = (∑ i ∈ range N, p.callbacks.runningCost (timeAt t0 dt i) (c.x i) (c.u i)) +
      p.callbacks.terminalCost (timeAt t0 dt N) (c.x N) := by
  rw [DDP.totalCost_out, DDP.totalCost, sum_real, Fin.sum_univ_castSucc, sum_range]
  simp only [Fin.val_last, Fin.val_castSucc]
  rw [h.term]
  congr 1
  exact sum_congr rfl fun i _ => h.run i i.2

/-- A least trajectory of the FMPC problem is the trajectory that is strictly cheaper than all others for DDP. -/
theorem agree_core (hdt : 0 < dt) {d : DDP.ControlData n ℝ} (hd : IsTrajectory p.callbacks t0 dt N x0 d)
    (hmin : ∀ d', IsTrajectory p.callbacks t0 dt N x0 d' → d.costs.sum ≤ d'.costs.sum ∧ (d'.costs.sum = d.costs.sum → d' = d))
    {v : FMPC.Var n (fun i => md (timeAt t0 dt i)) (fun i => (fun _ : ℝ => 0) (timeAt t0 dt i)) ℝ}
    (hv : FMPC.FeasibleTraj (fmpcOf p dt) t0 dt x0 N v.x v.u)
    (hle : ∀ y z, FMPC.FeasibleTraj (fmpcOf p dt) t0 dt x0 N y z →
      FMPC.trajCost (fmpcOf p dt) t0 dt N v.x v.u ≤ FMPC.trajCost (fmpcOf p dt) t0 dt N y z) :
    (v.out N).xs = d.xs ∧ (v.out N).us = d.us ∧ FMPC.trajCost (fmpcOf p dt) t0 dt N v.x v.u = d.costs.sum := by
  obtain ⟨c, hc, rfl⟩ := hd.exists_ctrl (lim := none)
  have hcost : ∀ {c : DDP.Ctrl n (fun i => md (timeAt t0 dt i)) ℝ},
      DDP.Consistent N (DDP.stagesOf p.callbacks none t0 dt N) x0 c →
      FMPC.trajCost (fmpcOf p dt) t0 dt N c.x c.u = (c.out N).costs.sum := by
    intro c h
    rw [consistent_cost h]
    unfold FMPC.trajCost
    congr 1
    refine sum_congr rfl fun i _ => ?_
    exact mul_div_cancel₀ _ hdt.ne'
  have hc' := ctrlOf_consistent (p := p) (N := N) (u := v.u) hv.init hv.dyn
  have h1 := hle c.x c.u ⟨hc.start, fun i hi => hc.step i hi, fun i _ j => j.elim0⟩
  have h2 := hcost hc'
  have h3 := hmin _ (DDP.out_isTrajectory hc')
  rw [hcost hc] at h1
  have h4 : ((ctrlOf p t0 dt N v.x v.u).out N).costs.sum = (c.out N).costs.sum := le_antisymm (h2 ▸ h1) h3.1
  have h5 := h3.2 h4
  refine ⟨?_, ?_, ?_⟩
  · rw [← h5]; rfl
  · rw [← h5]; rfl
  · rw [← h4, ← h2]; rfl

/-! ## Convexity of the cost over the inputs (for C/GMRES) -/

section Euler
variable {m : ℕ} {q : LQProblem n (fun _ => m)} {f : Vec n ℝ → Vec m ℝ → Vec n ℝ} {l : Vec n ℝ → Vec m ℝ → ℝ} {φ : Vec n ℝ → ℝ} {h : ℝ}

/-- The problem `q` handed to DDP is the Euler discretisation, with step `h`, of `x' = f(x, u)` with running cost `l` and terminal cost `φ`. -/
structure EulerOf (q : LQProblem n (fun _ => m)) (f : Vec n ℝ → Vec m ℝ → Vec n ℝ) (l : Vec n ℝ → Vec m ℝ → ℝ) (φ : Vec n ℝ → ℝ)
    (h : ℝ) : Prop where
  state : ∀ t x u, q.callbacks.stateEq t x u = x + h • f x u
  run : ∀ t x u, q.callbacks.runningCost t x u = h * l x u
  term : ∀ t x, q.callbacks.terminalCost t x = φ x

open Cgmres (eulerState horizonCost)

theorem EulerOf.consistent (H : EulerOf q f l φ h) (U : Fin N → Vec m ℝ) :
    DDP.Consistent N (DDP.stagesOf q.callbacks none t0 dt N) x0
      (ctrlOf q t0 dt N (eulerState f h x0 (Cgmres.colAt U)) (Cgmres.colAt U)) :=
  ctrlOf_consistent rfl fun _ _ => (H.state _ _ _).symm

theorem EulerOf.cost (H : EulerOf q f l φ h) (U : Fin N → Vec m ℝ) :
    ((ctrlOf q t0 dt N (eulerState f h x0 (Cgmres.colAt U)) (Cgmres.colAt U)).out N).costs.sum = horizonCost f l φ h x0 U := by
  rw [consistent_cost (H.consistent U), sum_range, horizonCost, add_comm]
  dsimp only [ctrlOf]
  rw [H.term]
  congr 1
  refine sum_congr rfl fun i _ => ?_
  rw [H.run]
  simp [Cgmres.colAt]

theorem quad_convex {k : ℕ} {Q : Mat k k ℝ} (hQ : Q.IsSymm) (x y : Vec k ℝ) {a b : ℝ} (hab : a + b = 1) :
    (a • x + b • y) ⬝ᵥ Q *ᵥ (a • x + b • y) = a * (x ⬝ᵥ Q *ᵥ x) + b * (y ⬝ᵥ Q *ᵥ y) - a * b * ((y - x) ⬝ᵥ Q *ᵥ (y - x)) := by
  have h : x ⬝ᵥ Q *ᵥ y = y ⬝ᵥ Q *ᵥ x := by
    rw [dotProduct_mulVec, ← mulVec_transpose, hQ.eq, dotProduct_comm]
  obtain rfl : a = 1 - b := by linarith
  simp only [mulVec_add, mulVec_sub, mulVec_smul, dotProduct_sub, sub_dotProduct, dotProduct_add, add_dotProduct, dotProduct_smul,
    smul_dotProduct, smul_eq_mul]
  rw [h]
  ring

theorem run_convex (hq : q.Convex) (t : ℝ) (x y : Vec n ℝ) (u v : Vec m ℝ) {a b : ℝ} (ha : 0 ≤ a) (hb : 0 ≤ b) (hab : a + b = 1) :
    q.callbacks.runningCost t (a • x + b • y) (a • u + b • v) ≤ a * q.callbacks.runningCost t x u + b * q.callbacks.runningCost t y v := by
  have h1 := quad_convex (q.symmQ t) x y hab
  have h2 := quad_convex (q.symmR t) u v hab
  have h3 := mul_nonneg (mul_nonneg ha hb) (hq.stage t (y - x) (v - u))
  have h4 : (a • x + b • y) ⬝ᵥ q.M t *ᵥ (a • u + b • v) = a * (x ⬝ᵥ q.M t *ᵥ u) + b * (y ⬝ᵥ q.M t *ᵥ v) -
      a * b * ((y - x) ⬝ᵥ q.M t *ᵥ (v - u)) := by
    obtain rfl : a = 1 - b := by linarith
    simp only [mulVec_add, mulVec_sub, mulVec_smul, dotProduct_sub, sub_dotProduct, dotProduct_add, add_dotProduct, dotProduct_smul,
      smul_dotProduct, smul_eq_mul]
    ring
  simp only [LQProblem.callbacks]
  rw [h1, h2, h4]
  simp only [dotProduct_add, dotProduct_smul, smul_eq_mul]
  have h5 : q.e t = a * q.e t + b * q.e t := by rw [← add_mul, hab, one_mul]
  linarith

theorem term_convex (hq : q.Convex) (t : ℝ) (x y : Vec n ℝ) {a b : ℝ} (ha : 0 ≤ a) (hb : 0 ≤ b) (hab : a + b = 1) :
    q.callbacks.terminalCost t (a • x + b • y) ≤ a * q.callbacks.terminalCost t x + b * q.callbacks.terminalCost t y := by
  have h1 := quad_convex (q.symmQf t) x y hab
  have h2 := (hq.term t).dotProduct_mulVec_nonneg (y - x)
  simp only [star_trivial] at h2
  have h3 := mul_nonneg (mul_nonneg ha hb) h2
  simp only [LQProblem.callbacks]
  rw [h1]
  simp only [dotProduct_add, dotProduct_smul, smul_eq_mul]
  have h5 : q.ef t = a * q.ef t + b * q.ef t := by rw [← add_mul, hab, one_mul]
  linarith

theorem EulerOf.affine (H : EulerOf q f l φ h) (U W : Fin N → Vec m ℝ) {a b : ℝ} (hab : a + b = 1) (i : ℕ) :
    eulerState f h x0 (Cgmres.colAt (a • U + b • W)) i =
      a • eulerState f h x0 (Cgmres.colAt U) i + b • eulerState f h x0 (Cgmres.colAt W) i := by
  have hcol : ∀ i, Cgmres.colAt (a • U + b • W) i = a • Cgmres.colAt U i + b • Cgmres.colAt W i := by
    intro i
    unfold Cgmres.colAt
    by_cases hi : i < N
    · simp only [dif_pos hi]; rfl
    · simp only [dif_neg hi]
      exact (by rw [smul_zero, smul_zero, add_zero] : (0 : Vec m ℝ) = a • (0 : Vec m ℝ) + b • (0 : Vec m ℝ))
  have h1 : ∀ x u, x + h • f x u = q.A 0 *ᵥ x + q.B 0 *ᵥ u + q.c 0 := fun x u => (H.state 0 x u).symm
  have hc : q.c 0 = a • q.c 0 + b • q.c 0 := by rw [← add_smul, hab, one_smul]
  induction i with
  | zero => exact (by rw [← add_smul, hab, one_smul] : x0 = a • x0 + b • x0)
  | succ i ih =>
    simp only [eulerState]
    rw [h1, h1, h1, ih, hcol]
    simp only [mulVec_add, mulVec_smul, smul_add]
    conv_lhs => rw [hc]
    abel

theorem EulerOf.convexOn (H : EulerOf q f l φ h) (hq : q.Convex) : ConvexOn ℝ Set.univ (horizonCost (N := N) f l φ h x0) := by
  refine ⟨convex_univ, fun U _ W _ a b ha hb hab => ?_⟩
  simp only [horizonCost, smul_eq_mul]
  have h1 : ∀ x u, h * l x u = q.callbacks.runningCost 0 x u := fun x u => (H.run 0 x u).symm
  have h2 : ∀ x, φ x = q.callbacks.terminalCost 0 x := fun x => (H.term 0 x).symm
  simp only [h1, h2, H.affine U W hab]
  rw [mul_add, mul_add, mul_sum, mul_sum, add_add_add_comm, ← sum_add_distrib]
  exact add_le_add (term_convex hq 0 _ _ ha hb hab) (sum_le_sum fun i _ => run_convex hq 0 _ _ _ _ ha hb hab)

end Euler

end Nmpc.Agree
