import Verif.Library.Cholesky
import Verif.BoxQP.Newton
import Verif.Problems.LQ
import Verif.Library.Ldlt
import Verif.FMPC.LQ

/-!
# Solvers with the factorisations of this directory (C75, C84, C85)

Statements about BoxQP and DDP with the factorisation `eigenLLT`, about GMRES with the dense solvers `eigenDense`, and about FMPC
with the gain solver `eigenGain`; they need no assumption about the linear algebra.
-/

namespace Nmpc.Library

open Nmpc.DDP (timeAt IsTrajectory)

/-- **C75** The bipedal example solved by DDP with the Cholesky factorisation: the result is the unique optimum, without assumption
about the factorisation (instance of C65). -/
theorem C75_bipedal (p : Problems.Bipedal ℝ) {dt t0 : ℝ} {as : List ℝ} {maxIter : ℤ} {us : List (Σ k : ℕ, Vec k ℝ)} {o : DDP.Obj 2 ℝ}
    {x0 : Vec 2 ℝ} {scratch : DDP.Scratch 2 (fun i => (fun _ : ℝ => 1) (timeAt t0 dt i)) ℝ}
    (h1 : 0 ≤ p.runningVel) (h2 : 0 < p.runningZmp) (h3 : 0 ≤ p.terminalPos) (h4 : 0 ≤ p.terminalVel)
    (hm : 7 ≤ maxIter) (hd : ∀ q ∈ us, q.1 = 1) :
    let r := DDP.solve eigenLLT (p.ddp dt) none dt (DDP.defaultConfig (1 :: as) maxIter us.length) o t0 scratch x0 us
    (r.2 = .ok true ∨ r.2 = .ok false) ∧
    (r.2 = .ok false ∨ 7 < r.1.trace.length → ∀ d, IsTrajectory (p.ddp dt) t0 dt us.length x0 d →
      r.1.control.costs.sum ≤ d.costs.sum ∧ (d.costs.sum = r.1.control.costs.sum → d = r.1.control)) :=
  Problems.C65_bipedal p C75_cholesky h1 h2 h3 h4 hm hd

/-- **C75** BoxQP with the Cholesky factorisation never reports a failure for a positive definite Hessian (instance of C06). -/
theorem C75_boxqp {n : ℕ} {c : BoxQP.Config ℝ} {o : BoxQP.Obj n ℝ} {a : BoxQP.Args n ℝ} {r : BoxQP.Result n ℝ} (hH : a.H.PosDef)
    (h : BoxQP.solve eigenLLT c o a = .ok r) : r.obj.retval ≠ -1 ∧ r.obj.retval ≠ -2 :=
  BoxQP.C06_posDef_no_failure C75_cholesky hH h

open Matrix

/-- **C84** GMRES with Householder QR or back substitution, for a nonsingular matrix and `k_max` at least the size: the residual is at
most `eps ‖b‖` (instance of C48). -/
theorem C84_gmres {n : ℕ} {cfg : Gmres.Config ℝ} {b x : Vec n ℝ} (M : Mat n n ℝ) (hM : IsUnit M.det) (he : 0 ≤ cfg.eps)
    (hk : (n : ℤ) ≤ cfg.kMax) {r : Gmres.Out n ℝ} (h : Gmres.solveMat eigenDense cfg M b x = .ok r) :
    Gmres.norm2 (b - M *ᵥ r.x) ≤ cfg.eps * Gmres.norm2 b :=
  Gmres.C48_solves eigenDense cfg b x C84_dense M hM he hk h

/-- A nonsingular system of size two. -/
example : ∃ r : Gmres.Out 2 ℝ, Gmres.solveMat (α := ℝ) eigenDense
    { makeTriangular := false, applyReorth := true, kMax := 2, eps := 0 } !![2, 1; 0, 1] ![1, 1] 0 = .ok r ∧ Gmres.norm2 (![1, 1] - !![2, 1; 0, 1] *ᵥ r.x) ≤ 0 * Gmres.norm2 (![1, 1] : Vec 2 ℝ) := by
  obtain ⟨r, hr⟩ := (Gmres.C46_total (eigenDense : Gmres.Dense ℝ) { makeTriangular := false, applyReorth := true, kMax := 2, eps := 0 }
    (!![2, 1; 0, 1] *ᵥ ·) ![1, 1] 0).2 (by norm_num)
  exact ⟨r, hr, C84_gmres _ (by simp [det_fin_two]) le_rfl (by norm_num) hr⟩

/-- **C85** FMPC with LDLT and LU, for convex costs: a call never reports an error (instance of C31). -/
theorem C85_fmpc {n : ℕ} {md pd : ℝ → ℕ} {P : FMPC.Callbacks n md pd} {dt : ℝ} {cfg : FMPC.Config ℝ} {o : FMPC.Obj n ℝ} {t0 : ℝ}
    {sc : FMPC.Scratch n (fun i => md (timeAt t0 dt i)) (fun i => pd (timeAt t0 dt i)) ℝ} {x0 : Vec n ℝ} {init : FMPC.VarL n ℝ}
    (hdt : 0 < dt) (hc : FMPC.ConvexCosts cfg.horizon.toNat (FMPC.stagesOf P t0 dt cfg.horizon.toNat))
    (hp : cfg.initComplementary = true ∨ init.Pos) {o' : FMPC.Obj n ℝ} {st : FMPC.Status}
    (h : FMPC.solve eigenGain P dt cfg o t0 sc x0 init = (o', .ok st)) :
    st = .succeeded ∨ st = .maxIterationReached ∨ (st = .uninitialized ∧ cfg.maxIter ≤ 0) :=
  FMPC.C31_solve C85_gain hdt hc hp h

end Nmpc.Library
