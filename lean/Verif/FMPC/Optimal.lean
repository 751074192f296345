import Verif.FMPC.LQ
import Mathlib.Analysis.Convex.Deriv

/-!
# FMPC: how far from the optimum a point with small KKT residuals is (helper lemmas for C100)

The KKT error is the only stopping criterion of the solver (FmpcSolver.hpp 443-449), and it does not contain the cost.  For
convex problems Lagrange duality turns it into a bound on the cost.
-/

set_option linter.unusedSectionVars false

namespace Nmpc.FMPC

open DDP (FDeriv LDeriv VDeriv timeAt)
open Matrix Finset

section Gap
variable {n : ℕ} {md pd : ℝ → ℕ} {P : Callbacks n md pd} {t0 dt : ℝ} {x0 : Vec n ℝ} {N : ℕ}

/-- The cost of the optimal control problem (as in the merit function, FmpcSolver.hpp 856-896): sum of the
running costs times `dt`, plus the terminal cost. -/
noncomputable def trajCost (P : Callbacks n md pd) (t0 dt : ℝ) (N : ℕ) (x : ℕ → Vec n ℝ)
    (u : (i : ℕ) → Vec (md (timeAt t0 dt i)) ℝ) : ℝ :=
  (∑ i ∈ range N, dt * P.runningCost (timeAt t0 dt i) (x i) (u i)) + P.terminalCost (timeAt t0 dt N) (x N)

/-- A trajectory that satisfies the constraints of the optimal control problem. -/
structure FeasibleTraj (P : Callbacks n md pd) (t0 dt : ℝ) (x0 : Vec n ℝ) (N : ℕ) (x : ℕ → Vec n ℝ)
    (u : (i : ℕ) → Vec (md (timeAt t0 dt i)) ℝ) : Prop where
  init : x 0 = x0
  dyn : ∀ i < N, x (i + 1) = P.stateEq (timeAt t0 dt i) (x i) (u i)
  ineq : ∀ i < N, ∀ j, P.ineqConst (timeAt t0 dt i) (x i) (u i) j ≤ 0

/-- A convex problem with correct derivative callbacks: the dynamics are affine, the costs and the constraint functions lie
above their linearisations. -/
structure ConvexProblem (P : Callbacks n md pd) : Prop where
  dyn : ∀ t x u x' u' b, P.stateEq t x' u' - P.stateEq t x u =
    (P.stateEqDeriv t x u b).Fx *ᵥ (x' - x) + (P.stateEqDeriv t x u b).Fu *ᵥ (u' - u)
  ineq : ∀ t x u x' u' b j, P.ineqConst t x u j + (((P.ineqConstDeriv t x u b).C *ᵥ (x' - x)) j +
    ((P.ineqConstDeriv t x u b).D *ᵥ (u' - u)) j) ≤ P.ineqConst t x' u' j
  cost : ∀ t x u x' u' b, P.runningCost t x u + ((P.runningCostDeriv t x u b).Lx ⬝ᵥ (x' - x) +
    (P.runningCostDeriv t x u b).Lu ⬝ᵥ (u' - u)) ≤ P.runningCost t x' u'
  term : ∀ t x x' b, P.terminalCost t x + (P.terminalCostDeriv t x b).Vx ⬝ᵥ (x' - x) ≤ P.terminalCost t x'

/-- Sum of absolute values. -/
def l1 {k : ℕ} (v : Vec k ℝ) : ℝ := ∑ j, |v j|

theorem l1_nonneg {k : ℕ} (v : Vec k ℝ) : 0 ≤ l1 v := sum_nonneg fun _ _ => abs_nonneg _

theorem dot_bound {k : ℕ} {r d : Vec k ℝ} {tol : ℝ} (h : ∀ j, |r j| ≤ tol) : - (tol * l1 d) ≤ r ⬝ᵥ d := by
  unfold dotProduct l1
  rw [mul_sum, ← sum_neg_distrib]
  refine sum_le_sum fun j _ => ?_
  have h1 : |r j * d j| ≤ tol * |d j| := by
    rw [abs_mul]; exact mul_le_mul_of_nonneg_right (h j) (abs_nonneg _)
  have := (abs_le.1 h1).1
  linarith

theorem dot_bound' {k : ℕ} {r d : Vec k ℝ} {tol : ℝ} (h : ∀ j, |r j| ≤ tol) : - (tol * l1 d) ≤ d ⬝ᵥ r := by
  rw [dotProduct_comm]; exact dot_bound h

theorem dot_mono {k : ℕ} {v a b : Vec k ℝ} (hv : ∀ j, 0 ≤ v j) (h : ∀ j, a j ≤ b j) : v ⬝ᵥ a ≤ v ⬝ᵥ b :=
  sum_le_sum fun j _ => mul_le_mul_of_nonneg_left (h j) (hv j)

/-- The lower bound on the cost difference of one stage. -/
theorem stage_gap {k q : ℕ} {lx lx' dtr : ℝ} {dx dx' lam lam' Lx dyn : Vec n ℝ} {du Lu : Vec k ℝ} {s nu e gy gv : Vec q ℝ}
    {Fx : Mat n n ℝ} {Fu : Mat n k ℝ} {C : Mat q n ℝ} {D : Mat q k ℝ} {tol : ℝ} (hdt : 0 ≤ dtr)
    (hc : lx + (Lx ⬝ᵥ dx + Lu ⬝ᵥ du) ≤ lx') (hdyn : Fx *ᵥ dx + Fu *ᵥ du = dx' - dyn)
    (hineq : ∀ j, gv j + ((C *ᵥ dx) j + (D *ᵥ du) j) ≤ gy j) (hgy : ∀ j, gy j ≤ 0)
    (hnu : ∀ j, 0 ≤ nu j) (he : ∀ j, gv j + s j = e j)
    (hd : ∀ j, |dyn j| ≤ tol) (hE : ∀ j, |e j| ≤ tol) (hsn : ∀ j, s j * nu j ≤ tol)
    (hx : ∀ j, |- lam j + dtr * Lx j + (∑ r, Fx r j * lam' r) + ∑ r, C r j * nu r| ≤ tol)
    (hu : ∀ j, |dtr * Lu j + (∑ r, Fu r j * lam' r) + ∑ r, D r j * nu r| ≤ tol) :
    dtr * lx + (lam ⬝ᵥ dx - lam' ⬝ᵥ dx') - tol * (l1 dx + l1 du + l1 lam' + l1 nu + q) ≤ dtr * lx' := by
  have e1 : (fun j => - lam j + dtr * Lx j + (∑ r, Fx r j * lam' r) + ∑ r, C r j * nu r) ⬝ᵥ dx
      = - (lam ⬝ᵥ dx) + dtr * (Lx ⬝ᵥ dx) + lam' ⬝ᵥ (Fx *ᵥ dx) + nu ⬝ᵥ (C *ᵥ dx) := by
    have a1 : (fun j => - lam j + dtr * Lx j + (∑ r, Fx r j * lam' r) + ∑ r, C r j * nu r)
        = - lam + dtr • Lx + lam' ᵥ* Fx + nu ᵥ* C := by
      funext j
      simp only [Pi.add_apply, Pi.neg_apply, Pi.smul_apply, smul_eq_mul, vecMul, dotProduct, mul_comm]
    rw [a1, add_dotProduct, add_dotProduct, add_dotProduct, neg_dotProduct, smul_dotProduct, dotProduct_mulVec,
      dotProduct_mulVec, smul_eq_mul]
  have e2 : (fun j => dtr * Lu j + (∑ r, Fu r j * lam' r) + ∑ r, D r j * nu r) ⬝ᵥ du
      = dtr * (Lu ⬝ᵥ du) + lam' ⬝ᵥ (Fu *ᵥ du) + nu ⬝ᵥ (D *ᵥ du) := by
    have a1 : (fun j => dtr * Lu j + (∑ r, Fu r j * lam' r) + ∑ r, D r j * nu r)
        = dtr • Lu + lam' ᵥ* Fu + nu ᵥ* D := by
      funext j
      simp only [Pi.add_apply, Pi.smul_apply, smul_eq_mul, vecMul, dotProduct, mul_comm]
    rw [a1, add_dotProduct, add_dotProduct, smul_dotProduct, dotProduct_mulVec,
      dotProduct_mulVec, smul_eq_mul]
  have b1 := dot_bound (d := dx) hx
  have b2 := dot_bound (d := du) hu
  rw [e1] at b1
  rw [e2] at b2
  have e3 : lam' ⬝ᵥ (Fx *ᵥ dx) + lam' ⬝ᵥ (Fu *ᵥ du) = lam' ⬝ᵥ dx' - lam' ⬝ᵥ dyn := by
    rw [← dotProduct_add, hdyn, dotProduct_sub]
  have b3 := dot_bound' (d := lam') hd
  have b4 := dot_bound' (d := nu) hE
  have e4 : nu ⬝ᵥ (C *ᵥ dx) + nu ⬝ᵥ (D *ᵥ du) ≤ nu ⬝ᵥ s - nu ⬝ᵥ e := by
    rw [← dotProduct_add, ← dotProduct_sub]
    refine dot_mono hnu fun j => ?_
    have := hineq j; have := hgy j; have := he j
    simp only [Pi.add_apply, Pi.sub_apply]
    linarith
  have b5 : nu ⬝ᵥ s ≤ tol * q := by
    have : nu ⬝ᵥ s ≤ ∑ _j : Fin q, tol := sum_le_sum fun j _ => by rw [mul_comm]; exact hsn j
    rw [sum_const, card_univ, Fintype.card_fin, nsmul_eq_mul, mul_comm] at this
    exact this
  have b6 := mul_le_mul_of_nonneg_left hc hdt
  nlinarith [b1, b2, b3, b4, b5, b6, e3, e4]

/-- Duality bound for a point with small KKT residuals. -/
theorem kkt_gap (hP : ConvexProblem P) (hdt : 0 ≤ dt)
    {v : Var n (fun i => md (timeAt t0 dt i)) (fun i => pd (timeAt t0 dt i)) ℝ}
    {dF : (i : ℕ) → FDeriv n (md (timeAt t0 dt i)) ℝ} {dG : (i : ℕ) → GDeriv n (md (timeAt t0 dt i)) (pd (timeAt t0 dt i)) ℝ}
    {dL : (i : ℕ) → LDeriv n (md (timeAt t0 dt i)) ℝ} {dV : VDeriv n ℝ} {tol : ℝ}
    (hD : DerivsAt P t0 dt N v dF dG dL dV) (hk : KktWithin P t0 dt x0 N v dF dG dL dV tol)
    (hnu : ∀ i < N, ∀ j, 0 ≤ v.nu i j) {y : ℕ → Vec n ℝ} {z : (i : ℕ) → Vec (md (timeAt t0 dt i)) ℝ}
    (hy : FeasibleTraj P t0 dt x0 N y z) :
    trajCost P t0 dt N v.x v.u ≤ trajCost P t0 dt N y z + tol * (l1 (v.lam 0) + l1 (y N - v.x N) +
      ∑ i ∈ range N, (l1 (y i - v.x i) + l1 (z i - v.u i) + l1 (v.lam (i + 1)) + l1 (v.nu i) + (pd (timeAt t0 dt i) : ℝ))) := by
  obtain ⟨k0, kN, ks⟩ := hk.each
  have key : ∀ k ≤ N, (∑ i ∈ range k, dt * P.runningCost (timeAt t0 dt i) (v.x i) (v.u i))
      + (v.lam 0 ⬝ᵥ (y 0 - v.x 0) - v.lam k ⬝ᵥ (y k - v.x k))
      - tol * (∑ i ∈ range k, (l1 (y i - v.x i) + l1 (z i - v.u i) + l1 (v.lam (i + 1)) + l1 (v.nu i) +
        (pd (timeAt t0 dt i) : ℝ))) ≤ ∑ i ∈ range k, dt * P.runningCost (timeAt t0 dt i) (y i) (z i) := by
    intro k
    induction k with
    | zero => intro _; simp
    | succ k ih =>
      intro hk1
      have hkN : k < N := hk1
      have h1 := ih (by omega)
      obtain ⟨⟨bF, hF⟩, ⟨bG, hG⟩, ⟨bL, hLd⟩⟩ := hD.1 k hkN
      obtain ⟨q1, q2, q3, q4, q5, -⟩ := ks k hkN
      have h2 := stage_gap (lam := v.lam k) (lam' := v.lam (k + 1)) (dx := y k - v.x k) (dx' := y (k + 1) - v.x (k + 1))
        (du := z k - v.u k) (s := v.s k) (nu := v.nu k) (Fx := (dF k).Fx) (Fu := (dF k).Fu) (C := (dG k).C) (D := (dG k).D)
        (Lx := (dL k).Lx) (Lu := (dL k).Lu) (gy := P.ineqConst (timeAt t0 dt k) (y k) (z k))
        (gv := P.ineqConst (timeAt t0 dt k) (v.x k) (v.u k))
        (e := fun j => P.ineqConst (timeAt t0 dt k) (v.x k) (v.u k) j + v.s k j)
        (dyn := fun j => P.stateEq (timeAt t0 dt k) (v.x k) (v.u k) j - v.x (k + 1) j)
        (lx := P.runningCost (timeAt t0 dt k) (v.x k) (v.u k)) (lx' := P.runningCost (timeAt t0 dt k) (y k) (z k)) hdt
        (by rw [hLd]; exact hP.cost _ _ _ _ _ bL)
        (by
          rw [hF, ← hP.dyn _ _ _ _ _ bF, hy.dyn k hkN]
          funext j
          simp only [Pi.sub_apply]
          ring)
        (by rw [hG]; exact hP.ineq _ _ _ _ _ bG) (hy.ineq k hkN) (hnu k hkN) (fun _ => rfl) q1 q2 q5 q3 q4
      rw [sum_range_succ, sum_range_succ, sum_range_succ, mul_add]
      linarith
  have hN := key N le_rfl
  obtain ⟨bV, hV⟩ := hD.2
  have t1 := hP.term (timeAt t0 dt N) (v.x N) (y N) bV
  rw [← hV] at t1
  have t2 := dot_bound (r := fun j => dV.Vx j - v.lam N j) (d := y N - v.x N) kN
  have t3 : (fun j => dV.Vx j - v.lam N j) ⬝ᵥ (y N - v.x N) = dV.Vx ⬝ᵥ (y N - v.x N) - v.lam N ⬝ᵥ (y N - v.x N) :=
    sub_dotProduct dV.Vx (v.lam N) (y N - v.x N)
  have t4 := dot_bound' (r := fun j => x0 j - v.x 0 j) (d := v.lam 0) k0
  have t5 : (y 0 - v.x 0) = fun j => x0 j - v.x 0 j := by rw [hy.init]; rfl
  rw [t5] at hN
  unfold trajCost
  rw [mul_add, mul_add]
  linarith

end Gap
end Nmpc.FMPC
