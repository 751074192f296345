import Verif.FMPC.Update
import Mathlib.Algebra.BigOperators.Group.Finset.Basic
import Mathlib.Algebra.Order.BigOperators.Group.Finset
import Mathlib.Tactic.Module

/-!
# FMPC: meaning of `Succeeded` (C29) and contraction of the primal residuals (C37)
-/

set_option linter.unusedSectionVars false

namespace Nmpc.FMPC

open DDP (FDeriv LDeriv VDeriv timeAt)
open Matrix Finset

theorem forUp_add (N : ℕ) (a : ℕ → ℝ) (s : ℝ) : forUp N (fun i e => e + a i) s = s + ∑ i ∈ range N, a i := by
  induction N with
  | zero => simp [forUp]
  | succ N ih => rw [forUp, ih, sum_range_succ, add_assoc]

/-! ## C29 -/

section Kkt
variable {n : ℕ} {md pd : ℝ → ℕ}

/-- Squared norm of the stationarity residuals, dynamics and constraint residuals and complementarity of step `i`, for
derivatives `F`, `G`, `L` of the problem at that step. -/
def stageResidual (P : Callbacks n md pd) (t dt : ℝ) (x x' : Vec n ℝ) (u : Vec (md t) ℝ) (lam lam' : Vec n ℝ)
    (s nu : Vec (pd t) ℝ) (F : FDeriv n (md t) ℝ) (G : GDeriv n (md t) (pd t) ℝ) (L : LDeriv n (md t) ℝ) : ℝ :=
  (∑ j, (P.stateEq t x u j - x' j) ^ 2) + (∑ j, (P.ineqConst t x u j + s j) ^ 2)
    + (∑ j, (- lam j + dt * L.Lx j + (∑ r, F.Fx r j * lam' r) + ∑ r, G.C r j * nu r) ^ 2)
    + (∑ j, (dt * L.Lu j + (∑ r, F.Fu r j * lam' r) + ∑ r, G.D r j * nu r) ^ 2)
    + ∑ j, (max (s j * nu j) 0) ^ 2

/-- The KKT residuals of a primal-dual point, evaluated with the derivatives that the callbacks return at that point,
have Euclidean norm at most `tol`. -/
def KktWithin (P : Callbacks n md pd) (t0 dt : ℝ) (x0 : Vec n ℝ) (N : ℕ)
    (v : Var n (fun i => md (timeAt t0 dt i)) (fun i => pd (timeAt t0 dt i)) ℝ)
    (dF : (i : ℕ) → FDeriv n (md (timeAt t0 dt i)) ℝ)
    (dG : (i : ℕ) → GDeriv n (md (timeAt t0 dt i)) (pd (timeAt t0 dt i)) ℝ)
    (dL : (i : ℕ) → LDeriv n (md (timeAt t0 dt i)) ℝ) (dV : VDeriv n ℝ) (tol : ℝ) : Prop :=
  Real.sqrt ((∑ j, (x0 j - v.x 0 j) ^ 2)
    + (∑ i ∈ range N, stageResidual P (timeAt t0 dt i) dt (v.x i) (v.x (i + 1)) (v.u i) (v.lam i) (v.lam (i + 1)) (v.s i)
        (v.nu i) (dF i) (dG i) (dL i))
    + ∑ j, (dV.Vx j - v.lam N j) ^ 2) ≤ tol

/-- The derivatives are those returned by the callbacks at the point (for some previous contents of the outputs). -/
def DerivsAt (P : Callbacks n md pd) (t0 dt : ℝ) (N : ℕ)
    (v : Var n (fun i => md (timeAt t0 dt i)) (fun i => pd (timeAt t0 dt i)) ℝ)
    (dF : (i : ℕ) → FDeriv n (md (timeAt t0 dt i)) ℝ)
    (dG : (i : ℕ) → GDeriv n (md (timeAt t0 dt i)) (pd (timeAt t0 dt i)) ℝ)
    (dL : (i : ℕ) → LDeriv n (md (timeAt t0 dt i)) ℝ) (dV : VDeriv n ℝ) : Prop :=
  (∀ i < N, (∃ b, dF i = P.stateEqDeriv (timeAt t0 dt i) (v.x i) (v.u i) b) ∧
    (∃ b, dG i = P.ineqConstDeriv (timeAt t0 dt i) (v.x i) (v.u i) b) ∧
    (∃ b, dL i = P.runningCostDeriv (timeAt t0 dt i) (v.x i) (v.u i) b)) ∧
  ∃ b, dV = P.terminalCostDeriv (timeAt t0 dt N) (v.x N) b

theorem dot_self_eq {k : ℕ} (v : Vec k ℝ) : sqNorm v = ∑ j, (v j) ^ 2 := by
  rw [sqNorm_real]
  exact sum_congr rfl fun j _ => (sq (v j)).symm

theorem stage_eq (P : Callbacks n md pd) (t0 dt : ℝ) (N i : ℕ)
    (v : Var n (fun i => md (timeAt t0 dt i)) (fun i => pd (timeAt t0 dt i)) ℝ)
    (c : Coeff n (md (timeAt t0 dt i)) (pd (timeAt t0 dt i)) ℝ) (e : ℝ) :
    let c' := calcCoeff (stagesOf P t0 dt N) v i c
    e + sqNorm c'.xbar + sqNorm c'.gbar + sqNorm c'.Lxbar + sqNorm c'.Lubar + sqNorm (complError 0 (v.s i) (v.nu i)) =
      e + stageResidual P (timeAt t0 dt i) dt (v.x i) (v.x (i + 1)) (v.u i) (v.lam i) (v.lam (i + 1)) (v.s i) (v.nu i)
        c'.F c'.G c'.L := by
  dsimp only
  simp only [dot_self_eq, stageResidual]
  have h1 : ∀ j, (calcCoeff (stagesOf P t0 dt N) v i c).Lxbar j = - v.lam i j +
      dt * (calcCoeff (stagesOf P t0 dt N) v i c).L.Lx j +
      (∑ r, (calcCoeff (stagesOf P t0 dt N) v i c).F.Fx r j * v.lam (i + 1) r) +
      ∑ r, (calcCoeff (stagesOf P t0 dt N) v i c).G.C r j * v.nu i r := by
    intro j
    simp [calcCoeff, stagesOf, mulVec, dotProduct]
  have h2 : ∀ j, (calcCoeff (stagesOf P t0 dt N) v i c).Lubar j =
      dt * (calcCoeff (stagesOf P t0 dt N) v i c).L.Lu j +
      (∑ r, (calcCoeff (stagesOf P t0 dt N) v i c).F.Fu r j * v.lam (i + 1) r) +
      ∑ r, (calcCoeff (stagesOf P t0 dt N) v i c).G.D r j * v.nu i r := by
    intro j
    simp [calcCoeff, stagesOf, mulVec, dotProduct]
  have h3 : ∀ j, complError 0 (v.s i) (v.nu i) j = max (v.s i j * v.nu i j) 0 := by
    intro j; simp [complError]
  simp only [h1, h2, h3]
  have h4 : ∀ j, (calcCoeff (stagesOf P t0 dt N) v i c).xbar j =
      P.stateEq (timeAt t0 dt i) (v.x i) (v.u i) j - v.x (i + 1) j := fun j => rfl
  have h5 : ∀ j, (calcCoeff (stagesOf P t0 dt N) v i c).gbar j =
      P.ineqConst (timeAt t0 dt i) (v.x i) (v.u i) j + v.s i j := fun j => rfl
  simp only [h4, h5]
  ring

variable {L : GainSolver ℝ} {P : Callbacks n md pd} {dt : ℝ} {cfg : Config ℝ} {o : Obj n ℝ}
  {t0 : ℝ} {sc : Scratch n (fun i => md (timeAt t0 dt i)) (fun i => pd (timeAt t0 dt i)) ℝ} {x0 : Vec n ℝ}
  {init : VarL n ℝ}

theorem kktOf_prepared (N : ℕ) (w : Solver n (fun i => md (timeAt t0 dt i)) (fun i => pd (timeAt t0 dt i)) ℝ) (e tol : ℝ) :
    kktOf N x0 (prepared N (stagesOf P t0 dt N) w e) ≤ tol ↔
      KktWithin P t0 dt x0 N w.var (fun i => (prepared N (stagesOf P t0 dt N) w e).coeff i |>.F)
        (fun i => (prepared N (stagesOf P t0 dt N) w e).coeff i |>.G)
        (fun i => (prepared N (stagesOf P t0 dt N) w e).coeff i |>.L)
        (prepared N (stagesOf P t0 dt N) w e).term.V tol := by
  unfold kktOf calcKktError KktWithin
  rw [sqrt_real]
  have key : ∀ k ≤ N, forUp k (fun i e' => e' + sqNorm ((prepared N (stagesOf P t0 dt N) w e).coeff i).xbar
      + sqNorm ((prepared N (stagesOf P t0 dt N) w e).coeff i).gbar
      + sqNorm ((prepared N (stagesOf P t0 dt N) w e).coeff i).Lxbar
      + sqNorm ((prepared N (stagesOf P t0 dt N) w e).coeff i).Lubar
      + sqNorm (complError 0 ((prepared N (stagesOf P t0 dt N) w e).var.s i)
          ((prepared N (stagesOf P t0 dt N) w e).var.nu i)))
        (0 + sqNorm (x0 - (prepared N (stagesOf P t0 dt N) w e).var.x 0)) =
      (∑ j, (x0 j - w.var.x 0 j) ^ 2) + ∑ i ∈ range k, stageResidual P (timeAt t0 dt i) dt (w.var.x i) (w.var.x (i + 1))
        (w.var.u i) (w.var.lam i) (w.var.lam (i + 1)) (w.var.s i) (w.var.nu i)
        ((prepared N (stagesOf P t0 dt N) w e).coeff i).F ((prepared N (stagesOf P t0 dt N) w e).coeff i).G
        ((prepared N (stagesOf P t0 dt N) w e).coeff i).L := by
    intro k hk
    induction k with
    | zero => simp only [forUp, dot_self_eq, range_zero, sum_empty, add_zero, zero_add]; rfl
    | succ k ih =>
      rw [forUp, ih (by omega), sum_range_succ, ← add_assoc]
      have hc : (prepared N (stagesOf P t0 dt N) w e).coeff k = calcCoeff (stagesOf P t0 dt N) w.var k (w.coeff k) :=
        if_pos (by omega)
      rw [hc]
      exact stage_eq P t0 dt N k w.var (w.coeff k) _
  rw [key N (le_refl _), dot_self_eq (prepared N (stagesOf P t0 dt N) w e).term.Lxbar]
  rfl

/-- **C29.**  When `solve` returns `Succeeded`, the returned primal-dual point satisfies the KKT conditions of the optimal
control problem (initial state, dynamics, stationarity with respect to states and inputs, terminal condition, inequality
constraints with slacks, complementarity) within `kkt_error_thre`. -/
theorem C29_kkt {o' : Obj n ℝ} (h : solve L P dt cfg o t0 sc x0 init = (o', .ok .succeeded)) :
    ∃ v dF dG dL dV, o'.var = v.out cfg.horizon.toNat ∧ DerivsAt P t0 dt cfg.horizon.toNat v dF dG dL dV ∧
      KktWithin P t0 dt x0 cfg.horizon.toNat v dF dG dL dV cfg.kktErrorThre := by
  obtain ⟨v, w, hv, hc, hr, rfl⟩ := solve_ok h
  obtain ⟨st', ho, hst, _⟩ := runSolver_ok hr
  obtain ⟨hl, -, -⟩ := (checkVariable_iff (md := md) (pd := pd) (t0 := t0) (dt := dt) (horizon := cfg.horizon) v).2.2.1 hc
  have hN : cfg.horizon.toNat = v.us.length := by have := hl.2.1; omega
  rw [hN]
  have hst' : st' = .succeeded := by
    by_cases hcs : st' = .iterationContinued
    · rw [if_pos hcs] at hst; cases hst
    · rw [if_neg hcs] at hst; exact hst.symm
  have key : st' = .succeeded → ∃ dF dG dL dV, DerivsAt P t0 dt v.us.length w.var dF dG dL dV ∧
      KktWithin P t0 dt x0 v.us.length w.var dF dG dL dV cfg.kktErrorThre := by
    refine optLoop_rule (fun _ st _ => st ≠ .succeeded) (fun st w => st = .succeeded →
        ∃ dF dG dL dV, DerivsAt P t0 dt v.us.length w.var dF dG dL dV ∧
          KktWithin P t0 dt x0 v.us.length w.var dF dG dL dV cfg.kktErrorThre) (by simp) ?_
      (fun st w h1 h2 => absurd h2 h1) ho
    intro it st w w' st' _ _ _ hp
    obtain ⟨e, he, _, _, h1, h2, _⟩ := procOnce_frame hp
    split
    · rename_i hh; rw [hh]; simp
    · rename_i hh
      intro hs
      rw [h1 hh]
      have := h2.1 hs
      rw [leb_real, kktOf_prepared] at this
      refine ⟨_, _, _, _, ⟨?_, ⟨_, rfl⟩⟩, this⟩
      intro i hi
      have hci : (prepared v.us.length (stagesOf P t0 dt v.us.length) w e).coeff i =
        calcCoeff (stagesOf P t0 dt v.us.length) w.var i (w.coeff i) := if_pos hi
      rw [hci]
      exact ⟨⟨_, rfl⟩, ⟨_, rfl⟩, ⟨_, rfl⟩⟩
  obtain ⟨dF, dG, dL, dV, h1, h2⟩ := key hst'
  exact ⟨w.var, dF, dG, dL, dV, rfl, h1, h2⟩

theorem sum_sq_le {k : ℕ} (f : Fin k → ℝ) (j : Fin k) : (f j) ^ 2 ≤ ∑ j, (f j) ^ 2 :=
  single_le_sum (f := fun j => (f j) ^ 2) (fun _ _ => sq_nonneg _) (mem_univ j)

theorem sum_sq_nonneg {k : ℕ} (f : Fin k → ℝ) : 0 ≤ ∑ j, (f j) ^ 2 := sum_nonneg fun _ _ => sq_nonneg _

theorem stageResidual_nonneg (t dt : ℝ) (x x' : Vec n ℝ) (u : Vec (md t) ℝ) (lam lam' : Vec n ℝ)
    (s nu : Vec (pd t) ℝ) (F : FDeriv n (md t) ℝ) (G : GDeriv n (md t) (pd t) ℝ) (L : LDeriv n (md t) ℝ) :
    0 ≤ stageResidual P t dt x x' u lam lam' s nu F G L := by
  unfold stageResidual
  have := fun k f => sum_sq_nonneg (k := k) f
  repeat' apply add_nonneg
  all_goals exact this _ _

/-- What `KktWithin` says about the individual equations. -/
theorem KktWithin.each {N : ℕ} {v : Var n (fun i => md (timeAt t0 dt i)) (fun i => pd (timeAt t0 dt i)) ℝ}
    {dF : (i : ℕ) → FDeriv n (md (timeAt t0 dt i)) ℝ}
    {dG : (i : ℕ) → GDeriv n (md (timeAt t0 dt i)) (pd (timeAt t0 dt i)) ℝ}
    {dL : (i : ℕ) → LDeriv n (md (timeAt t0 dt i)) ℝ} {dV : VDeriv n ℝ} {tol : ℝ}
    (h : KktWithin P t0 dt x0 N v dF dG dL dV tol) :
    (∀ j, |x0 j - v.x 0 j| ≤ tol) ∧ (∀ j, |dV.Vx j - v.lam N j| ≤ tol) ∧
    ∀ i < N, (∀ j, |P.stateEq (timeAt t0 dt i) (v.x i) (v.u i) j - v.x (i + 1) j| ≤ tol) ∧
      (∀ j, |P.ineqConst (timeAt t0 dt i) (v.x i) (v.u i) j + v.s i j| ≤ tol) ∧
      (∀ j, |- v.lam i j + dt * (dL i).Lx j + (∑ r, (dF i).Fx r j * v.lam (i + 1) r) + ∑ r, (dG i).C r j * v.nu i r| ≤ tol) ∧
      (∀ j, |dt * (dL i).Lu j + (∑ r, (dF i).Fu r j * v.lam (i + 1) r) + ∑ r, (dG i).D r j * v.nu i r| ≤ tol) ∧
      (∀ j, v.s i j * v.nu i j ≤ tol) ∧
      (∀ j, 0 ≤ v.s i j → P.ineqConst (timeAt t0 dt i) (v.x i) (v.u i) j ≤ tol) := by
  have h0 : 0 ≤ tol := (Real.sqrt_nonneg _).trans h
  have habs : ∀ a : ℝ, a ^ 2 ≤ tol ^ 2 → |a| ≤ tol := fun a ha => abs_le_of_sq_le_sq ha h0
  unfold KktWithin at h
  rw [Real.sqrt_le_left h0] at h
  have h1 : 0 ≤ ∑ j, (x0 j - v.x 0 j) ^ 2 := sum_sq_nonneg _
  have h2 : 0 ≤ ∑ j, (dV.Vx j - v.lam N j) ^ 2 := sum_sq_nonneg _
  have h3 : 0 ≤ ∑ i ∈ range N, stageResidual P (timeAt t0 dt i) dt (v.x i) (v.x (i + 1)) (v.u i) (v.lam i) (v.lam (i + 1))
      (v.s i) (v.nu i) (dF i) (dG i) (dL i) := sum_nonneg fun i _ => stageResidual_nonneg _ _ _ _ _ _ _ _ _ _ _ _
  refine ⟨fun j => habs _ ?_, fun j => habs _ ?_, ?_⟩
  · have := sum_sq_le (fun j => x0 j - v.x 0 j) j
    linarith
  · have := sum_sq_le (fun j => dV.Vx j - v.lam N j) j
    linarith
  intro i hi
  have h4 : stageResidual P (timeAt t0 dt i) dt (v.x i) (v.x (i + 1)) (v.u i) (v.lam i) (v.lam (i + 1))
      (v.s i) (v.nu i) (dF i) (dG i) (dL i) ≤ tol ^ 2 := by
    have := single_le_sum (f := fun i => stageResidual P (timeAt t0 dt i) dt (v.x i) (v.x (i + 1)) (v.u i) (v.lam i)
      (v.lam (i + 1)) (v.s i) (v.nu i) (dF i) (dG i) (dL i)) (fun i _ => stageResidual_nonneg _ _ _ _ _ _ _ _ _ _ _ _)
      (mem_range.2 hi)
    linarith
  unfold stageResidual at h4
  have g1 := sum_sq_nonneg (fun j => P.stateEq (timeAt t0 dt i) (v.x i) (v.u i) j - v.x (i + 1) j)
  have g2 := sum_sq_nonneg (fun j => P.ineqConst (timeAt t0 dt i) (v.x i) (v.u i) j + v.s i j)
  have g3 := sum_sq_nonneg (fun j => - v.lam i j + dt * (dL i).Lx j + (∑ r, (dF i).Fx r j * v.lam (i + 1) r) + ∑ r, (dG i).C r j * v.nu i r)
  have g4 := sum_sq_nonneg (fun j => dt * (dL i).Lu j + (∑ r, (dF i).Fu r j * v.lam (i + 1) r) + ∑ r, (dG i).D r j * v.nu i r)
  have g5 := sum_sq_nonneg (fun j => max (v.s i j * v.nu i j) 0)
  have hineq : ∀ j, |P.ineqConst (timeAt t0 dt i) (v.x i) (v.u i) j + v.s i j| ≤ tol := fun j => habs _ (by
    have := sum_sq_le (fun j => P.ineqConst (timeAt t0 dt i) (v.x i) (v.u i) j + v.s i j) j
    linarith)
  refine ⟨fun j => habs _ ?_, hineq, fun j => habs _ ?_, fun j => habs _ ?_, fun j => ?_, fun j hs => ?_⟩
  · have := sum_sq_le (fun j => P.stateEq (timeAt t0 dt i) (v.x i) (v.u i) j - v.x (i + 1) j) j
    linarith
  · have := sum_sq_le (fun j => - v.lam i j + dt * (dL i).Lx j + (∑ r, (dF i).Fx r j * v.lam (i + 1) r) + ∑ r, (dG i).C r j * v.nu i r) j
    linarith
  · have := sum_sq_le (fun j => dt * (dL i).Lu j + (∑ r, (dF i).Fu r j * v.lam (i + 1) r) + ∑ r, (dG i).D r j * v.nu i r) j
    linarith
  · have := sum_sq_le (fun j => max (v.s i j * v.nu i j) 0) j
    have h5 := habs (max (v.s i j * v.nu i j) 0) (by linarith)
    exact (le_max_left _ _).trans ((le_abs_self _).trans h5)
  · have := (abs_le.1 (hineq j)).2
    linarith

end Kkt

/-! ## C37 -/

section Contraction
variable {n : ℕ} {m p : ℕ → ℕ} {L : GainSolver ℝ} {N : ℕ} {cfg : Config ℝ} {S : Stages n m p ℝ} {x0 : Vec n ℝ}

/-- Dynamics and inequality constraints are affine and the derivative callbacks return their coefficients. -/
structure AffineConstraints (S : Stages n m p ℝ) (A : ℕ → Mat n n ℝ) (B : (i : ℕ) → Mat n (m i) ℝ) (a : ℕ → Vec n ℝ)
    (C : (i : ℕ) → Mat (p i) n ℝ) (D : (i : ℕ) → Mat (p i) (m i) ℝ) (c : (i : ℕ) → Vec (p i) ℝ) : Prop where
  f : ∀ i x u, S.f i x u = A i *ᵥ x + B i *ᵥ u + a i
  g : ∀ i x u, S.g i x u = C i *ᵥ x + D i *ᵥ u + c i
  dfx : ∀ i x u b, (S.df i x u b).Fx = A i
  dfu : ∀ i x u b, (S.df i x u b).Fu = B i
  dgx : ∀ i x u b, (S.dg i x u b).C = C i
  dgu : ∀ i x u b, (S.dg i x u b).D = D i

theorem bwStage_frame {k q : ℕ} {dt eps : ℝ} {sl nu : Vec q ℝ} {c c' : Coeff n k q ℝ} {s : Vec n ℝ} {P : Mat n n ℝ}
    (h : bwStage L cfg dt eps sl nu c s P = some c') :
    c'.F = c.F ∧ c'.G = c.G ∧ c'.L = c.L ∧ c'.xbar = c.xbar ∧ c'.gbar = c.gbar ∧ c'.Lxbar = c.Lxbar ∧
      c'.Lubar = c.Lubar := by
  unfold bwStage at h
  dsimp only at h
  split at h
  · cases h
  · cases h; exact ⟨rfl, rfl, rfl, rfl, rfl, rfl, rfl⟩

theorem bwLoop_frame {dt eps : ℝ} {v : Var n m p ℝ} {k : ℕ} {s : Vec n ℝ} {P : Mat n n ℝ}
    {co : (i : ℕ) → Coeff n (m i) (p i) ℝ} (i : ℕ) :
    let c' := (bwLoop L cfg dt eps v k s P co).2 i
    c'.F = (co i).F ∧ c'.G = (co i).G ∧ c'.L = (co i).L ∧ c'.xbar = (co i).xbar ∧ c'.gbar = (co i).gbar ∧
      c'.Lxbar = (co i).Lxbar ∧ c'.Lubar = (co i).Lubar := by
  induction k generalizing s P co with
  | zero => exact ⟨rfl, rfl, rfl, rfl, rfl, rfl, rfl⟩
  | succ k ih =>
    unfold bwLoop
    split
    · exact ⟨rfl, rfl, rfl, rfl, rfl, rfl, rfl⟩
    · rename_i c hc
      have h1 := ih (s := c.s) (P := c.P) (co := Function.update co k c)
      have h2 := bwStage_frame hc
      by_cases hi : i = k
      · subst hi
        rw [Function.update_self] at h1
        dsimp only at h1 ⊢
        refine ⟨h1.1.trans h2.1, h1.2.1.trans h2.2.1, h1.2.2.1.trans h2.2.2.1, h1.2.2.2.1.trans h2.2.2.2.1,
          h1.2.2.2.2.1.trans h2.2.2.2.2.1, h1.2.2.2.2.2.1.trans h2.2.2.2.2.2.1, h1.2.2.2.2.2.2.trans h2.2.2.2.2.2.2⟩
      · rw [Function.update_of_ne hi] at h1
        exact h1

theorem backwardPass_coeff (w : Solver n m p ℝ) (i : ℕ) :
    let c' := (backwardPass L N cfg S w).2.coeff i
    c'.F = (w.coeff i).F ∧ c'.G = (w.coeff i).G ∧ c'.L = (w.coeff i).L ∧ c'.xbar = (w.coeff i).xbar ∧
      c'.gbar = (w.coeff i).gbar ∧ c'.Lxbar = (w.coeff i).Lxbar ∧ c'.Lubar = (w.coeff i).Lubar := by
  have h : (backwardPass L N cfg S w).2.coeff =
      (bwLoop L cfg S.dt w.eps w.var N (smulv (-1) w.term.Lxbar) w.term.V.Vxx w.coeff).2 := by
    unfold backwardPass
    dsimp only
    split
    · split <;> rfl
    · rfl
  rw [h]
  exact bwLoop_frame i

/-- The residuals of a point: initial state, dynamics and inequality constraints. -/
def initRes (x0 : Vec n ℝ) (v : Var n m p ℝ) : Vec n ℝ := x0 - v.x 0

/-- Dynamics residual. -/
def dynRes (S : Stages n m p ℝ) (v : Var n m p ℝ) (i : ℕ) : Vec n ℝ := S.f i (v.x i) (v.u i) - v.x (i + 1)

/-- Inequality residual. -/
def ineqRes (S : Stages n m p ℝ) (v : Var n m p ℝ) (i : ℕ) : Vec (p i) ℝ := S.g i (v.x i) (v.u i) + v.s i

theorem mv_step {k l : ℕ} (A : Mat k l ℝ) (x d : Vec l ℝ) (t : ℝ) : A *ᵥ (x + t • d) = A *ᵥ x + t • A *ᵥ d := by
  rw [mulVec_add, mulVec_smul]

theorem forwardDelta_ineq {eps : ℝ} {v : Var n m p ℝ} {co : (i : ℕ) → Coeff n (m i) (p i) ℝ} {term : TCoeff n ℝ} (i : ℕ) :
    let d := forwardDelta N eps x0 v co term
    (co i).G.C *ᵥ d.x i + (co i).G.D *ᵥ d.u i + d.s i = - (co i).gbar := by
  dsimp only [forwardDelta]
  simp only [mulVec_real, smulv_real]
  module

theorem forwardDelta_dyn {eps : ℝ} {v : Var n m p ℝ} {co : (i : ℕ) → Coeff n (m i) (p i) ℝ} {term : TCoeff n ℝ} (i : ℕ) :
    let d := forwardDelta N eps x0 v co term
    (co i).F.Fx *ᵥ d.x i + (co i).F.Fu *ᵥ d.u i - d.x (i + 1) = - (co i).xbar := by
  dsimp only [forwardDelta]
  conv_lhs => rw [deltaX]
  simp only [mulVec_real]
  module

/-- **C37**, one iteration: for affine dynamics and inequality constraints an iteration multiplies all primal residuals by
the same factor `1 - alpha_s`, with `alpha_s` in (0,1]; no assumption on the factorisation of the gain matrices. -/
theorem C37_contraction {A : ℕ → Mat n n ℝ} {B : (i : ℕ) → Mat n (m i) ℝ} {a : ℕ → Vec n ℝ}
    {C : (i : ℕ) → Mat (p i) n ℝ} {D : (i : ℕ) → Mat (p i) (m i) ℝ} {c : (i : ℕ) → Vec (p i) ℝ}
    (hS : AffineConstraints S A B a C D c) {iter : ℕ} {w w' : Solver n m p ℝ} (hw : w.var.Pos N)
    (h : procOnce L N cfg S x0 iter w = .ok (w', .iterationContinued)) :
    ∃ alpha : ℝ, 0 < alpha ∧ alpha ≤ 1 ∧ initRes x0 w'.var = (1 - alpha) • initRes x0 w.var ∧
      (∀ i < N, dynRes S w'.var i = (1 - alpha) • dynRes S w.var i) ∧
      ∀ i < N, ineqRes S w'.var i = (1 - alpha) • ineqRes S w.var i := by
  have := procOnce_out (L := L) (N := N) (cfg := cfg) (S := S) (x0 := x0) iter w
  rw [h] at this
  generalize hx : (Res.ok (w', .iterationContinued) : Res (Solver n m p ℝ × Status)) = x at this
  cases this with
  | ubEps => cases hx
  | succeeded => cases hx
  | backward => cases hx
  | forward => cases hx
  | update e he hk w2 hb w3 hf r hr =>
    cases r with
    | ok r =>
      obtain ⟨b, w4⟩ := r
      have h1 := (backwardPass_frame (L := L) (N := N) (cfg := cfg) (S := S) (traced N x0 iter (prepared N S w e))).1
      rw [hb] at h1
      have h2 := (forwardPass_frame (N := N) (cfg := cfg) (x0 := x0) w2).1
      rw [hf] at h2
      have hv3 : w3.var = w.var := h2.trans h1
      have hw3 : w3.var.Pos N := by rw [hv3]; exact hw
      have hd : w3.delta = forwardDelta N w2.eps x0 w2.var w2.coeff w2.term := by
        unfold forwardPass at hf
        exact congrArg (fun q => q.2.delta) hf.symm
      have hco : ∀ i < N, (w2.coeff i).F = (calcCoeff S w.var i (w.coeff i)).F ∧
          (w2.coeff i).G = (calcCoeff S w.var i (w.coeff i)).G ∧
          (w2.coeff i).xbar = dynRes S w.var i ∧ (w2.coeff i).gbar = ineqRes S w.var i := by
        intro i hi
        have h3 := backwardPass_coeff (L := L) (N := N) (cfg := cfg) (S := S) (traced N x0 iter (prepared N S w e)) i
        rw [hb] at h3
        have h4 : (traced N x0 iter (prepared N S w e)).coeff i = calcCoeff S w.var i (w.coeff i) := if_pos hi
        rw [h4] at h3
        exact ⟨h3.1, h3.2.1, h3.2.2.2.1, h3.2.2.2.2.1⟩
      obtain ⟨rfl, -, aS, aNu, a1, a2, -, -, g1, g2, -⟩ := updateVariables_pos hw3 hr
      cases hx
      rw [hv3, hd] at g1 g2
      refine ⟨aS, a1, a2, ?_, ?_, ?_⟩
      · unfold initRes
        rw [(g2 0 (by omega)).1]
        have : (forwardDelta N w2.eps x0 w2.var w2.coeff w2.term).x 0 = x0 - w.var.x 0 := by
          have : w2.var = w.var := h1
          rw [this]; rfl
        rw [this]
        module
      · intro i hi
        have hdyn := forwardDelta_dyn (N := N) (x0 := x0) (eps := w2.eps) (v := w2.var) (co := w2.coeff) (term := w2.term) i
        dsimp only at hdyn
        obtain ⟨c1, c2, c3, c4⟩ := hco i hi
        rw [c1, c3] at hdyn
        have e1 : (calcCoeff S w.var i (w.coeff i)).F.Fx = A i := hS.dfx _ _ _ _
        have e2 : (calcCoeff S w.var i (w.coeff i)).F.Fu = B i := hS.dfu _ _ _ _
        rw [e1, e2] at hdyn
        have : dynRes S w4.var i = dynRes S w.var i + aS •
            (A i *ᵥ (forwardDelta N w2.eps x0 w2.var w2.coeff w2.term).x i +
             B i *ᵥ (forwardDelta N w2.eps x0 w2.var w2.coeff w2.term).u i -
             (forwardDelta N w2.eps x0 w2.var w2.coeff w2.term).x (i + 1)) := by
          unfold dynRes
          rw [(g2 i (by omega)).1, (g1 i hi).2.2, (g2 (i + 1) (by omega)).1, hS.f, hS.f, mv_step, mv_step]
          module
        rw [this, hdyn]
        module
      · intro i hi
        have hin := forwardDelta_ineq (N := N) (x0 := x0) (eps := w2.eps) (v := w2.var) (co := w2.coeff) (term := w2.term) i
        dsimp only at hin
        obtain ⟨c1, c2, c3, c4⟩ := hco i hi
        rw [c2, c4] at hin
        have e1 : (calcCoeff S w.var i (w.coeff i)).G.C = C i := hS.dgx _ _ _ _
        have e2 : (calcCoeff S w.var i (w.coeff i)).G.D = D i := hS.dgu _ _ _ _
        rw [e1, e2] at hin
        have : ineqRes S w4.var i = ineqRes S w.var i + aS •
            (C i *ᵥ (forwardDelta N w2.eps x0 w2.var w2.coeff w2.term).x i +
             D i *ᵥ (forwardDelta N w2.eps x0 w2.var w2.coeff w2.term).u i +
             (forwardDelta N w2.eps x0 w2.var w2.coeff w2.term).s i) := by
          unfold ineqRes
          rw [(g2 i (by omega)).1, (g1 i hi).2.2, (g1 i hi).1, hS.g, hS.g, mv_step, mv_step]
          module
        rw [this, hin]
        module
    | _ => cases hx

end Contraction

section ContractionSolve
variable {n : ℕ} {md pd : ℝ → ℕ} {L : GainSolver ℝ} {P : Callbacks n md pd} {dt : ℝ} {cfg : Config ℝ} {o : Obj n ℝ}
  {t0 : ℝ} {sc : Scratch n (fun i => md (timeAt t0 dt i)) (fun i => pd (timeAt t0 dt i)) ℝ} {x0 : Vec n ℝ}
  {init : VarL n ℝ}

/-- **C37**, over a whole call: the primal residuals of the returned point are a common multiple in [0,1] of those of
the initial point; once feasible the iterates stay feasible. -/
theorem C37_solve {A : ℕ → Mat n n ℝ} {B : (i : ℕ) → Mat n (md (timeAt t0 dt i)) ℝ} {a : ℕ → Vec n ℝ}
    {C : (i : ℕ) → Mat (pd (timeAt t0 dt i)) n ℝ} {D : (i : ℕ) → Mat (pd (timeAt t0 dt i)) (md (timeAt t0 dt i)) ℝ}
    {c : (i : ℕ) → Vec (pd (timeAt t0 dt i)) ℝ}
    (hS : AffineConstraints (stagesOf P t0 dt cfg.horizon.toNat) A B a C D c)
    (hp : cfg.initComplementary = true ∨ init.Pos) {o' : Obj n ℝ} {st : Status}
    (h : solve L P dt cfg o t0 sc x0 init = (o', .ok st)) :
    ∃ vl v w, startVar P dt cfg t0 init = .ok vl ∧
      v = (vl.toVar : Var n (fun i => md (timeAt t0 dt i)) (fun i => pd (timeAt t0 dt i)) ℝ) ∧
      o'.var = w.out cfg.horizon.toNat ∧ ∃ γ : ℝ, 0 ≤ γ ∧ γ ≤ 1 ∧ initRes x0 w = γ • initRes x0 v ∧
        (∀ i < cfg.horizon.toNat, dynRes (stagesOf P t0 dt cfg.horizon.toNat) w i =
          γ • dynRes (stagesOf P t0 dt cfg.horizon.toNat) v i) ∧
        ∀ i < cfg.horizon.toNat, ineqRes (stagesOf P t0 dt cfg.horizon.toNat) w i =
          γ • ineqRes (stagesOf P t0 dt cfg.horizon.toNat) v i := by
  obtain ⟨v, w, hv, hc, hr, rfl⟩ := solve_ok h
  obtain ⟨st', ho, hst, _⟩ := runSolver_ok hr
  obtain ⟨hl, -, -⟩ := (checkVariable_iff (md := md) (pd := pd) (t0 := t0) (dt := dt) (horizon := cfg.horizon) v).2.2.1 hc
  have hN : cfg.horizon.toNat = v.us.length := by have := hl.2.1; omega
  rw [hN] at hS ⊢
  have h0 := solve_pos_start (o := o) (sc := sc) hp hv hc
  refine ⟨v, v.toVar, w.var, hv, rfl, rfl, ?_⟩
  have key : ∀ (r it : ℕ) (w0 w' : Solver n (fun i => md (timeAt t0 dt i)) (fun i => pd (timeAt t0 dt i)) ℝ) st st',
      w0.var.Pos v.us.length →
      optLoop L v.us.length cfg (stagesOf P t0 dt v.us.length) x0 r it st w0 = .ok (w', st') →
      ∃ γ : ℝ, 0 ≤ γ ∧ γ ≤ 1 ∧ initRes x0 w'.var = γ • initRes x0 w0.var ∧
        (∀ i < v.us.length, dynRes (stagesOf P t0 dt v.us.length) w'.var i =
          γ • dynRes (stagesOf P t0 dt v.us.length) w0.var i) ∧
        ∀ i < v.us.length, ineqRes (stagesOf P t0 dt v.us.length) w'.var i =
          γ • ineqRes (stagesOf P t0 dt v.us.length) w0.var i := by
    intro r it w0 w' st st' hw hopt
    refine (optLoop_rule (fun _ _ w1 => w1.var.Pos v.us.length ∧
      ∃ γ : ℝ, 0 ≤ γ ∧ γ ≤ 1 ∧ initRes x0 w1.var = γ • initRes x0 w0.var ∧
        (∀ i < v.us.length, dynRes (stagesOf P t0 dt v.us.length) w1.var i =
          γ • dynRes (stagesOf P t0 dt v.us.length) w0.var i) ∧
        ∀ i < v.us.length, ineqRes (stagesOf P t0 dt v.us.length) w1.var i =
          γ • ineqRes (stagesOf P t0 dt v.us.length) w0.var i)
      (fun _ w1 => ∃ γ : ℝ, 0 ≤ γ ∧ γ ≤ 1 ∧ initRes x0 w1.var = γ • initRes x0 w0.var ∧
        (∀ i < v.us.length, dynRes (stagesOf P t0 dt v.us.length) w1.var i =
          γ • dynRes (stagesOf P t0 dt v.us.length) w0.var i) ∧
        ∀ i < v.us.length, ineqRes (stagesOf P t0 dt v.us.length) w1.var i =
          γ • ineqRes (stagesOf P t0 dt v.us.length) w0.var i)
      ⟨hw, 1, zero_le_one, le_refl _, by simp, by simp, by simp⟩ ?_ (fun _ _ h => h.2) hopt)
    intro it st1 w1 w2 st2 _ _ hI hp
    obtain ⟨hpos, γ, γ0, γ1, k1, k2, k3⟩ := hI
    split
    · rename_i hh
      subst hh
      obtain ⟨al, a1, a2, g1, g2, g3⟩ := C37_contraction hS hpos hp
      refine ⟨(procOnce_pos hpos hp).1, (1 - al) * γ, mul_nonneg (by linarith) γ0, ?_, ?_, ?_, ?_⟩
      · nlinarith
      · rw [g1, k1, smul_smul]
      · intro i hi; rw [g2 i hi, k2 i hi, smul_smul]
      · intro i hi; rw [g3 i hi, k3 i hi, smul_smul]
    · rename_i hh
      obtain ⟨e, _, _, _, hvar, _⟩ := procOnce_frame hp
      rw [hvar hh]
      exact ⟨γ, γ0, γ1, k1, k2, k3⟩
  exact key _ _ _ _ _ _ h0 ho

end ContractionSolve
end Nmpc.FMPC
