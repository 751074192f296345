import Verif.DDP.Coord

/-!
# C131: DDP does not depend on the unit of the cost nor on the orientation of the input axes

In exact arithmetic, without input limits: if all costs are multiplied by `c > 0` and the inputs are expressed in rotated axes `v = R u`,
then `DDPSolver::solve`, with `initial_lambda`, `lambda_min`, `lambda_max`, `lambda_thre` and `cost_update_thre` multiplied by `c`,
returns the same states, the rotated inputs, the multiplied costs and the same value.
-/

namespace Nmpc.DDP

set_option linter.unusedSectionVars false

open Matrix

/-- A unit `c > 0` for the cost and, for every input dimension, a rotation or reflection `R` of the input axes. -/
structure Gauge where
  c : ℝ
  pos : 0 < c
  R : (k : ℕ) → Mat k k ℝ
  orth : ∀ k, (R k)ᵀ * R k = 1

namespace Gauge
variable {n k : ℕ} {m : ℕ → ℕ} (U : Gauge)

theorem orth' (k : ℕ) : U.R k * (U.R k)ᵀ = 1 := mul_eq_one_comm.1 (U.orth k)

theorem c_ne : U.c ≠ 0 := U.pos.ne'

theorem RtR (v : Vec k ℝ) : (U.R k)ᵀ *ᵥ (U.R k *ᵥ v) = v := by rw [mulVec_mulVec, U.orth, one_mulVec]

theorem R_dot (v w : Vec k ℝ) : (U.R k *ᵥ v) ⬝ᵥ (U.R k *ᵥ w) = v ⬝ᵥ w := by
  rw [dotProduct_mulVec, vecMul_mulVec, U.orth, vecMul_one]

theorem R_norm (v : Vec k ℝ) : vnorm (U.R k *ᵥ v) = vnorm v := by
  unfold vnorm
  rw [sqNorm_real, sqNorm_real, R_dot]

/-- Derivatives of the transformed problem, and back. -/
noncomputable def F (d : FDeriv n k ℝ) : FDeriv n k ℝ := ⟨d.Fx, d.Fu * (U.R k)ᵀ⟩
noncomputable def Fi (d : FDeriv n k ℝ) : FDeriv n k ℝ := ⟨d.Fx, d.Fu * U.R k⟩
noncomputable def L (d : LDeriv n k ℝ) : LDeriv n k ℝ :=
  ⟨U.c • d.Lx, U.c • (U.R k *ᵥ d.Lu), U.c • d.Lxx, U.c • (U.R k * d.Luu * (U.R k)ᵀ), U.c • (d.Lxu * (U.R k)ᵀ)⟩
noncomputable def Li (d : LDeriv n k ℝ) : LDeriv n k ℝ :=
  ⟨U.c⁻¹ • d.Lx, U.c⁻¹ • ((U.R k)ᵀ *ᵥ d.Lu), U.c⁻¹ • d.Lxx, U.c⁻¹ • ((U.R k)ᵀ * d.Luu * U.R k), U.c⁻¹ • (d.Lxu * U.R k)⟩
noncomputable def V (d : VDeriv n ℝ) : VDeriv n ℝ := ⟨U.c • d.Vx, U.c • d.Vxx⟩
noncomputable def Vi (d : VDeriv n ℝ) : VDeriv n ℝ := ⟨U.c⁻¹ • d.Vx, U.c⁻¹ • d.Vxx⟩

@[simp] theorem Fi_F (d : FDeriv n k ℝ) : U.Fi (U.F d) = d := by
  unfold F Fi
  dsimp only
  rw [Matrix.mul_assoc, U.orth, Matrix.mul_one]

@[simp] theorem Li_L (d : LDeriv n k ℝ) : U.Li (U.L d) = d := by
  unfold L Li
  dsimp only
  rw [mulVec_smul, RtR, Matrix.mul_smul, Matrix.smul_mul, Coord.sand _ (U.orth k) (U.orth k), Matrix.smul_mul, Matrix.mul_assoc,
    U.orth, Matrix.mul_one]
  simp only [smul_smul, inv_mul_cancel₀ U.c_ne, one_smul]

@[simp] theorem Vi_V (d : VDeriv n ℝ) : U.Vi (U.V d) = d := by
  unfold V Vi
  simp only [smul_smul, inv_mul_cancel₀ U.c_ne, one_smul]

noncomputable def stages (S : Stages n m ℝ) : Stages n m ℝ where
  f i x v := S.f i x ((U.R (m i))ᵀ *ᵥ v)
  l i x v := U.c * S.l i x ((U.R (m i))ᵀ *ᵥ v)
  φ x := U.c * S.φ x
  df i x v d := U.F (S.df i x ((U.R (m i))ᵀ *ᵥ v) (U.Fi d))
  df2 i x v d := U.F (S.df2 i x ((U.R (m i))ᵀ *ᵥ v) (U.Fi d))
  dl i x v d := U.L (S.dl i x ((U.R (m i))ᵀ *ᵥ v) (U.Li d))
  dφ x d := U.V (S.dφ x (U.Vi d))
  lim := S.lim

noncomputable def ctrl (c : Ctrl n m ℝ) : Ctrl n m ℝ :=
  { x := c.x, u := fun i => U.R (m i) *ᵥ c.u i, cost := fun i => U.c * c.cost i }

noncomputable def gains (g : Gains n m ℝ) : Gains n m ℝ := { k := fun i => U.R (m i) *ᵥ g.k i, K := fun i => U.R (m i) * g.K i }

noncomputable def derivs (d : Derivs n m ℝ) : Derivs n m ℝ where
  F i := U.F (d.F i)
  L i := U.L (d.L i)
  V := U.V d.V

/-- The regularised Hessian in the new units. -/
noncomputable def uu (A : Mat k k ℝ) : Mat k k ℝ := U.c • (U.R k * A * (U.R k)ᵀ)

noncomputable def Q (q : QData n k ℝ) : QData n k ℝ where
  Qu := U.c • (U.R k *ᵥ q.Qu)
  Qx := U.c • q.Qx
  Qux := U.c • (U.R k * q.Qux)
  Quu := U.uu q.Quu
  Qxx := U.c • q.Qxx
  QuxReg := U.c • (U.R k * q.QuxReg)
  QuuF := U.uu q.QuuF

noncomputable def bw (s : BwState n m ℝ) : BwState n m ℝ :=
  { V := U.V s.V, dV0 := U.c * s.dV0, dV1 := U.c * s.dV1, gains := U.gains s.gains }

/-- Costs, `lambda` and cost updates in the new unit. -/
noncomputable def trace (t : Trace ℝ) : Trace ℝ :=
  { t with cost := U.c * t.cost, lambda := U.c * t.lambda, actual := U.c * t.actual, expected := U.c * t.expected }

noncomputable def solver (s : Solver n m ℝ) : Solver n m ℝ where
  lambda := U.c * s.lambda
  dlambda := s.dlambda
  ctrl := U.ctrl s.ctrl
  gains := U.gains s.gains
  derivs := U.derivs s.derivs
  dV0 := U.c * s.dV0
  dV1 := U.c * s.dV1
  trace := s.trace.map U.trace

noncomputable def fwd (w : Fwd n m ℝ) : Fwd n m ℝ :=
  { w with actual := U.c * w.actual, expected := U.c * w.expected, cand := U.ctrl w.cand }

noncomputable def scratch (s : Scratch n m ℝ) : Scratch n m ℝ :=
  { gains := U.gains s.gains, derivs := U.derivs s.derivs, dV0 := U.c * s.dV0, dV1 := U.c * s.dV1 }

/-- The parameters with the unit of the cost. -/
noncomputable def config (cfg : Config ℝ) : Config ℝ :=
  { cfg with
    initialLambda := U.c * cfg.initialLambda
    lambdaMin := U.c * cfg.lambdaMin
    lambdaMax := U.c * cfg.lambdaMax
    lambdaThre := U.c * cfg.lambdaThre
    costUpdateThre := U.c * cfg.costUpdateThre }

/-- An input in the new axes. -/
noncomputable def inp (u : Σ k : ℕ, Vec k ℝ) : Σ k : ℕ, Vec k ℝ := ⟨u.1, U.R u.1 *ᵥ u.2⟩

/-- Same states, rotated inputs, costs in the new unit. -/
noncomputable def obj (o : Obj n ℝ) : Obj n ℝ where
  control := { xs := o.control.xs, us := o.control.us.map U.inp, costs := o.control.costs.map (U.c * ·) }
  trace := o.trace.map U.trace

/-- The transformed problem: dynamics `f(t, x, Rᵀ v)`, costs `c l(t, x, Rᵀ v)`, `c φ(t, x)`; derivatives by the chain rule. -/
noncomputable def callbacks {md : ℝ → ℕ} (P : Callbacks n md) : Callbacks n md where
  stateEq t x v := P.stateEq t x ((U.R (md t))ᵀ *ᵥ v)
  runningCost t x v := U.c * P.runningCost t x ((U.R (md t))ᵀ *ᵥ v)
  terminalCost t x := U.c * P.terminalCost t x
  stateEqDeriv t x v d := U.F (P.stateEqDeriv t x ((U.R (md t))ᵀ *ᵥ v) (U.Fi d))
  stateEqDeriv2 t x v d := U.F (P.stateEqDeriv2 t x ((U.R (md t))ᵀ *ᵥ v) (U.Fi d))
  runningCostDeriv t x v d := U.L (P.runningCostDeriv t x ((U.R (md t))ᵀ *ᵥ v) (U.Li d))
  terminalCostDeriv t x d := U.V (P.terminalCostDeriv t x (U.Vi d))

/-- What is needed of the factorisation: success and solution do not depend on the units. -/
structure Fits (U : Gauge) (L : LLT ℝ) : Prop where
  ok : ∀ {k : ℕ} (A : Mat k k ℝ), L.ok (U.uu A) = L.ok A
  solve : ∀ {k : ℕ} (A : Mat k k ℝ) (b : Vec k ℝ), L.ok A = true → L.solve (U.uu A) (U.c • (U.R k *ᵥ b)) = U.R k *ᵥ L.solve A b

variable {L : LLT ℝ} {cfg : Config ℝ} {N : ℕ} {S : Stages n m ℝ}

theorem rollout_gauge (x0 : Vec n ℝ) (pol pol' : (i : ℕ) → Vec n ℝ → Vec (m i) ℝ) (hp : ∀ i x, pol' i x = U.R (m i) *ᵥ pol i x) :
    rollout N (U.stages S) x0 pol' = U.ctrl (rollout N S x0 pol) := by
  have hx : ∀ i, rollX (U.stages S) x0 pol' i = rollX S x0 pol i := by
    intro i
    induction i with
    | zero => rfl
    | succ i ih =>
      simp only [rollX]
      rw [ih, hp]
      show S.f i _ ((U.R (m i))ᵀ *ᵥ (U.R (m i) *ᵥ _)) = _
      rw [RtR]
  unfold rollout ctrl
  congr 1
  · funext i; exact hx i
  · funext i; rw [hx, hp]
  · funext i
    rw [hx, hp]
    show (if i < N then U.c * S.l i _ ((U.R (m i))ᵀ *ᵥ (U.R (m i) *ᵥ _)) else U.c * S.φ _) = _
    rw [RtR]
    dsimp only
    split <;> rfl

theorem forwardPass_gauge (c : Ctrl n m ℝ) (g : Gains n m ℝ) (a : ℝ) :
    forwardPass N (U.stages S) (U.ctrl c) (U.gains g) a = U.ctrl (forwardPass N S c g a) := by
  refine rollout_gauge U _ _ _ fun i x => ?_
  show U.R (m i) *ᵥ c.u i + smulv a (U.R (m i) *ᵥ g.k i) + FOps.mulVec (U.R (m i) * g.K i) (x - c.x i) = _
  rw [mulVec_real, smulv_real, smulv_real, mulVec_real, mulVec_add, mulVec_add, mulVec_smul, mulVec_mulVec]

theorem calcDerivs_gauge (c : Ctrl n m ℝ) (d : Derivs n m ℝ) :
    calcDerivs N (U.config cfg) (U.stages S) (U.ctrl c) (U.derivs d) = U.derivs (calcDerivs N cfg S c d) := by
  unfold calcDerivs derivs
  dsimp only
  congr 1
  · funext i
    split
    · show (if cfg.useSecond = true then U.F (S.df2 i (c.x i) ((U.R (m i))ᵀ *ᵥ (U.R (m i) *ᵥ c.u i)) (U.Fi (U.F (d.F i))))
        else U.F (S.df i (c.x i) ((U.R (m i))ᵀ *ᵥ (U.R (m i) *ᵥ c.u i)) (U.Fi (U.F (d.F i))))) = _
      rw [RtR, Fi_F]
      split <;> rfl
    · rfl
  · funext i
    split
    · show U.L (S.dl i (c.x i) ((U.R (m i))ᵀ *ᵥ (U.R (m i) *ᵥ c.u i)) (U.Li (U.L (d.L i)))) = _
      rw [RtR, Li_L]
    · rfl
  · show U.V (S.dφ (c.x N) (U.Vi (U.V d.V))) = _
    rw [Vi_V]

theorem uu_addDiag (A : Mat k k ℝ) (a : ℝ) : addDiag (U.uu A) (U.c * a) = U.uu (addDiag A a) := by
  unfold uu
  rw [addDiag_real, addDiag_real, Matrix.mul_add, Matrix.add_mul, Matrix.mul_smul, Matrix.smul_mul, Matrix.mul_one, U.orth',
    smul_add, smul_smul]

theorem calcQ_gauge (lambda : ℝ) (F : FDeriv n k ℝ) (l : LDeriv n k ℝ) (V : VDeriv n ℝ) :
    calcQ (U.config cfg) (U.c * lambda) (U.F F) (U.L l) (U.V V) = U.Q (calcQ cfg lambda F l V) := by
  have hreg : (if cfg.regType = 2 then addDiag (U.c • V.Vxx) (U.c * lambda) else U.c • V.Vxx) =
      U.c • (if cfg.regType = 2 then addDiag V.Vxx lambda else V.Vxx) := by
    split
    · rw [addDiag_real, addDiag_real, smul_add, smul_smul]
    · rfl
  have e1 : ∀ W : Mat n n ℝ, (F.Fu * (U.R k)ᵀ)ᵀ * (U.c • W) * (F.Fu * (U.R k)ᵀ) = U.uu (F.Fuᵀ * W * F.Fu) := by
    intro W
    unfold uu
    rw [transpose_mul, transpose_transpose, Matrix.mul_smul, Matrix.smul_mul]
    simp only [Matrix.mul_assoc]
  have e2 : ∀ W : Mat n n ℝ, (F.Fu * (U.R k)ᵀ)ᵀ * (U.c • W) * F.Fx = U.c • (U.R k * (F.Fuᵀ * W * F.Fx)) := by
    intro W
    rw [transpose_mul, transpose_transpose, Matrix.mul_smul, Matrix.smul_mul]
    simp only [Matrix.mul_assoc]
  have e3 : ∀ A B : Mat k k ℝ, U.c • (U.R k * A * (U.R k)ᵀ) + U.uu B = U.uu (A + B) := by
    intro A B
    unfold uu
    rw [Matrix.mul_add, Matrix.add_mul, smul_add]
  have e4 : (U.c • (l.Lxu * (U.R k)ᵀ))ᵀ = U.c • (U.R k * l.Lxuᵀ) := by
    rw [transpose_smul, transpose_mul, transpose_transpose]
  unfold calcQ
  simp only [matMul_real, mulVec_real]
  unfold Gauge.Q Gauge.F Gauge.L Gauge.V
  dsimp only
  rw [show (U.config cfg).regType = cfg.regType from rfl, hreg]
  generalize (if cfg.regType = 2 then addDiag V.Vxx lambda else V.Vxx) = W
  rw [e1, e1, e2, e2, e3, e3, e4]
  congr 1
  · rw [transpose_mul, transpose_transpose, mulVec_smul, ← mulVec_mulVec, mulVec_add, smul_add]
  · rw [mulVec_smul, smul_add]
  · rw [Matrix.mul_add, smul_add]
  · rw [Matrix.mul_smul, Matrix.smul_mul, smul_add]
  · rw [Matrix.mul_add, smul_add]
  · split
    · rw [uu_addDiag]
    · rfl

theorem updateV_gauge (Q : QData n k ℝ) (kv : Vec k ℝ) (K : Mat k n ℝ) :
    updateV (U.Q Q) (U.R k *ᵥ kv) (U.R k * K) = U.V (updateV Q kv K) := by
  have h1 : ∀ {a b : ℕ} (A : Mat k a ℝ) (B : Mat k b ℝ), (U.R k * A)ᵀ * (U.R k * B) = Aᵀ * B := by
    intro a b A B
    rw [transpose_mul, Matrix.mul_assoc, ← Matrix.mul_assoc _ _ B, U.orth, Matrix.one_mul]
  have h2 : ∀ {a : ℕ} (A : Mat k a ℝ) (v : Vec k ℝ), (U.R k * A)ᵀ *ᵥ (U.R k *ᵥ v) = Aᵀ *ᵥ v := by
    intro a A v
    rw [transpose_mul, mulVec_mulVec, Matrix.mul_assoc, U.orth, Matrix.mul_one]
  have h3 : ∀ {a : ℕ} (A : Mat k a ℝ) (B : Mat k k ℝ), (U.R k * A)ᵀ * U.uu B = U.c • (Aᵀ * B * (U.R k)ᵀ) := by
    intro a A B
    rw [uu, Matrix.mul_smul, Matrix.mul_assoc, h1, Matrix.mul_assoc]
  have h4 : ∀ {a b : ℕ} (A : Mat a k ℝ) (B : Mat k b ℝ), A * (U.R k)ᵀ * (U.R k * B) = A * B := by
    intro a b A B
    rw [Matrix.mul_assoc, ← Matrix.mul_assoc _ _ B, U.orth, Matrix.one_mul]
  have h5 : ∀ {a : ℕ} (A : Mat a k ℝ) (v : Vec k ℝ), (A * (U.R k)ᵀ) *ᵥ (U.R k *ᵥ v) = A *ᵥ v := by
    intro a A v
    rw [← mulVec_mulVec, RtR]
  unfold updateV
  simp only [matMul_real, mulVec_real]
  unfold Gauge.Q Gauge.V
  dsimp only
  rw [h3]
  simp only [Matrix.smul_mul, Matrix.mul_smul, smul_mulVec, mulVec_smul, transpose_smul, h1, h2, h4, h5]
  congr 1
  · simp only [smul_add]
  · rw [← smul_add, ← smul_add, ← smul_add, transpose_smul, ← smul_add]
    simp only [smulm_real, smul_smul, mul_comm]

section Solve
variable (hL : U.Fits L) (hc : cfg.withConstraint = false)
include hL hc

theorem stageGains_gauge (c c' : Ctrl n m ℝ) (g g' : Gains n m ℝ) (i : ℕ) (Q : QData n (m i) ℝ) :
    stageGains L N (U.config cfg) (U.stages S) c' g' i (U.Q Q) =
      (stageGains L N cfg S c g i Q).map (Option.map fun p => (U.R (m i) *ᵥ p.1, (U.R (m i) * p.2 : Mat (m i) n ℝ))) := by
  unfold stageGains
  rw [show (U.config cfg).withConstraint = cfg.withConstraint from rfl, hc]
  split
  · simp only [Bool.false_eq_true, if_false]
    unfold unconstrainedGains
    rw [show (U.Q Q).QuuF = U.uu Q.QuuF from rfl, show (U.Q Q).Qu = U.c • (U.R (m i) *ᵥ Q.Qu) from rfl,
      show (U.Q Q).QuxReg = U.c • (U.R (m i) * Q.QuxReg) from rfl, hL.ok]
    split
    · rename_i hok
      rw [hL.solve _ _ hok]
      have hm : L.solveMat (U.uu Q.QuuF) (U.c • (U.R (m i) * Q.QuxReg)) = U.R (m i) * L.solveMat Q.QuuF Q.QuxReg := by
        ext a j
        have h := congrFun (hL.solve Q.QuuF (fun r => Q.QuxReg r j) hok) a
        exact h
      rw [hm]
      simp only [Res.map, Res.bind_ok, Option.map_some, smulv_real, smulm_real, mulVec_smul, Matrix.mul_smul]
    · rfl
  · simp only [Res.map, Res.bind_ok, Option.map_some]
    rw [show (fun _ => 0 : Vec (m i) ℝ) = 0 from rfl, mulVec_zero]
    have hz : U.R (m i) * (Matrix.of (fun _ _ => 0 : Fin (m i) → Fin n → ℝ)) = fun _ _ => 0 := Matrix.mul_zero _
    exact congrArg (fun K => Res.ok (some ((0 : Vec (m i) ℝ), K))) hz.symm

theorem bwStage_gauge (c c' : Ctrl n m ℝ) (d : Derivs n m ℝ) (lambda : ℝ) (i : ℕ) (b : BwState n m ℝ) :
    bwStage L N (U.config cfg) (U.stages S) c' (U.derivs d) (U.c * lambda) i (U.bw b) =
      (bwStage L N cfg S c d lambda i b).map fun p => (p.1, U.bw p.2) := by
  unfold bwStage
  rw [show (U.config cfg).useSecond = cfg.useSecond from rfl]
  split
  · rfl
  · have hQ : calcQ (U.config cfg) (U.c * lambda) ((U.derivs d).F i) ((U.derivs d).L i) (U.bw b).V =
        U.Q (calcQ cfg lambda (d.F i) (d.L i) b.V) := calcQ_gauge U _ _ _ _
    dsimp only
    rw [hQ, stageGains_gauge U hL hc c c' b.gains]
    generalize calcQ cfg lambda (d.F i) (d.L i) b.V = Q
    generalize stageGains L N cfg S c b.gains i Q = r
    cases r with
    | ok r =>
      cases r with
      | none => rfl
      | some p =>
        obtain ⟨kv, K⟩ := p
        simp only [Res.map, Res.bind_ok, Option.map_some]
        rw [updateV_gauge]
        have hd1 : (U.R (m i) *ᵥ kv) ⬝ᵥ (U.Q Q).Qu = U.c * (kv ⬝ᵥ Q.Qu) := by
          show (U.R (m i) *ᵥ kv) ⬝ᵥ (U.c • (U.R (m i) *ᵥ Q.Qu)) = _
          rw [dotProduct_smul, R_dot, smul_eq_mul]
        have hd2 : (U.R (m i) *ᵥ kv) ⬝ᵥ ((U.Q Q).Quu *ᵥ (U.R (m i) *ᵥ kv)) = U.c * (kv ⬝ᵥ (Q.Quu *ᵥ kv)) := by
          show (U.R (m i) *ᵥ kv) ⬝ᵥ ((U.c • (U.R (m i) * Q.Quu * (U.R (m i))ᵀ)) *ᵥ (U.R (m i) *ᵥ kv)) = _
          rw [smul_mulVec, ← mulVec_mulVec, RtR, ← mulVec_mulVec, dotProduct_smul, R_dot, smul_eq_mul]
        unfold bw gains
        simp only [dot_real, mulVec_real, hd1, hd2]
        simp only [Res.ok.injEq, Prod.mk.injEq, true_and, BwState.mk.injEq, Gains.mk.injEq]
        refine ⟨by ring, by ring, ?_, ?_⟩
        · funext j
          by_cases hj : j = i
          · subst hj; simp
          · simp [Function.update_of_ne hj]
        · funext j
          by_cases hj : j = i
          · subst hj; simp
          · simp [Function.update_of_ne hj]
    | _ => rfl

theorem bwLoop_gauge (c c' : Ctrl n m ℝ) (d : Derivs n m ℝ) (lambda : ℝ) (i : ℕ) (b : BwState n m ℝ) :
    bwLoop L N (U.config cfg) (U.stages S) c' (U.derivs d) (U.c * lambda) i (U.bw b) =
      (bwLoop L N cfg S c d lambda i b).map fun p => (p.1, U.bw p.2) := by
  induction i generalizing b with
  | zero => rfl
  | succ i ih =>
    unfold bwLoop
    rw [bwStage_gauge U hL hc c]
    generalize bwStage L N cfg S c d lambda i b = r
    cases r with
    | ok r =>
      obtain ⟨f, b'⟩ := r
      simp only [Res.map, Res.bind_ok]
      cases f with
      | true => simp only [if_true]; exact ih b'
      | false => rfl
    | _ => rfl

omit hL hc in
theorem ltb_scale (a b : ℝ) : ltb (U.c * a) (U.c * b) = ltb a b := by
  rw [Bool.eq_iff_iff, ltb_real, ltb_real, mul_lt_mul_iff_right₀ U.pos]

omit hL hc in
theorem leb_scale (a b : ℝ) : leb (U.c * a) (U.c * b) = leb a b := by
  rw [Bool.eq_iff_iff, leb_real, leb_real, mul_le_mul_iff_right₀ U.pos]

omit hL hc in
theorem increase_gauge (s : Solver n m ℝ) : (U.solver s).increase (U.config cfg) = U.solver (s.increase cfg) := by
  unfold Solver.increase solver
  dsimp only
  rw [show (U.config cfg).lambdaFactor = cfg.lambdaFactor from rfl, show (U.config cfg).lambdaMin = U.c * cfg.lambdaMin from rfl]
  congr 1
  rw [fmax_real (s.lambda * _), fmax_real (U.c * s.lambda * _), mul_max_of_nonneg _ _ U.pos.le, mul_assoc]

omit hL hc in
theorem decrease_gauge (s : Solver n m ℝ) : (U.solver s).decrease (U.config cfg) = U.solver (s.decrease cfg) := by
  unfold Solver.decrease solver
  dsimp only
  rw [show (U.config cfg).lambdaFactor = cfg.lambdaFactor from rfl, show (U.config cfg).lambdaMin = U.c * cfg.lambdaMin from rfl,
    leb_scale]
  congr 1
  split
  · rw [mul_assoc]
  · rw [mul_zero]

theorem bwRound_gauge (s : Solver n m ℝ) :
    bwRound L N (U.config cfg) (U.stages S) (U.solver s) = (bwRound L N cfg S s).map U.solver fun p => (U.solver p.1, p.2) := by
  unfold bwRound backwardPass
  have := bwLoop_gauge (cfg := cfg) (N := N) (S := S) U hL hc s.ctrl (U.ctrl s.ctrl) s.derivs s.lambda N
    { V := s.derivs.V, dV0 := 0, dV1 := 0, gains := s.gains }
  have hz : U.bw { V := s.derivs.V, dV0 := 0, dV1 := 0, gains := s.gains } =
      { V := (U.solver s).derivs.V, dV0 := 0, dV1 := 0, gains := (U.solver s).gains } := by
    unfold bw
    dsimp only
    rw [mul_zero]
    rfl
  rw [hz] at this
  have h3 : bwLoop L N (U.config cfg) (U.stages S) (U.solver s).ctrl (U.solver s).derivs (U.solver s).lambda N
    { V := (U.solver s).derivs.V, dV0 := 0, dV1 := 0, gains := (U.solver s).gains } = _ := this
  rw [h3]
  generalize bwLoop L N cfg S s.ctrl s.derivs s.lambda N _ = r
  cases r with
  | ok r =>
    obtain ⟨f, b'⟩ := r
    cases f with
    | true => rfl
    | false =>
      simp only [Res.map, Res.bind_ok]
      rw [show (U.solver s).setBw (U.bw b') = U.solver (s.setBw b') from rfl, increase_gauge,
        show (U.config cfg).lambdaMax = U.c * cfg.lambdaMax from rfl,
        show (U.solver ((s.setBw b').increase cfg)).lambda = U.c * ((s.setBw b').increase cfg).lambda from rfl, ltb_scale]
      split <;> rfl
  | _ => rfl

theorem bwSearch_gauge (s : Solver n m ℝ) :
    bwSearch L N (U.config cfg) (U.stages S) (U.solver s) = (U.solver (bwSearch L N cfg S s).1, (bwSearch L N cfg S s).2) := by
  unfold bwSearch
  rw [loopM_map U.solver (fun p : Solver n m ℝ × Res Bool => (U.solver p.1, p.2)) (bwRound_gauge (cfg := cfg) (N := N) U hL hc)]
  cases loopM (bwRound L N cfg S) s <;> rfl

omit hL hc in
theorem totalCost_gauge (c : Ctrl n m ℝ) : totalCost N (U.ctrl c) = U.c * totalCost N c := by
  unfold totalCost
  rw [sum_real, sum_real, Finset.mul_sum]
  rfl

omit hL hc in
theorem tryAlpha_gauge (s : Solver n m ℝ) (a : ℝ) :
    tryAlpha N (U.config cfg) (U.stages S) (U.solver s) a = U.fwd (tryAlpha N cfg S s a) := by
  have h : forwardPass N (U.stages S) (U.solver s).ctrl (U.solver s).gains a = U.ctrl (forwardPass N S s.ctrl s.gains a) :=
    forwardPass_gauge U _ _ _
  have ha : totalCost N (U.solver s).ctrl - totalCost N (U.ctrl (forwardPass N S s.ctrl s.gains a)) =
      U.c * (totalCost N s.ctrl - totalCost N (forwardPass N S s.ctrl s.gains a)) := by
    rw [show (U.solver s).ctrl = U.ctrl s.ctrl from rfl, totalCost_gauge, totalCost_gauge, mul_sub]
  have he : (-1) * a * ((U.solver s).dV0 + a * (U.solver s).dV1) = U.c * ((-1) * a * (s.dV0 + a * s.dV1)) := by
    show (-1) * a * (U.c * s.dV0 + a * (U.c * s.dV1)) = _
    ring
  have h0 : ∀ y : ℝ, ltb (U.c * y) 0 = ltb y 0 := fun y => by have := U.ltb_scale y 0; rwa [mul_zero] at this
  have h1 : ∀ y : ℝ, leb 0 (U.c * y) = leb 0 y := fun y => by have := U.leb_scale 0 y; rwa [mul_zero] at this
  unfold tryAlpha fwd
  dsimp only
  rw [h, ha, he, h0, h1, mul_div_mul_left _ _ U.c_ne]
  rfl

omit hL hc in
theorem tryAlphas_gauge (s : Solver n m ℝ) (as : List ℝ) (w : Fwd n m ℝ) :
    tryAlphas N (U.config cfg) (U.stages S) (U.solver s) as (U.fwd w) = U.fwd (tryAlphas N cfg S s as w) := by
  induction as generalizing w with
  | nil => rfl
  | cons a as ih =>
    unfold tryAlphas
    dsimp only
    rw [tryAlpha_gauge]
    show (if (tryAlpha N cfg S s a).success = true then _ else _) = _
    split
    · rfl
    · exact ih _

omit hL hc in
theorem finishStep_gauge (pre : List (Trace ℝ)) (tr : Trace ℝ) (w : Fwd n m ℝ) (s : Solver n m ℝ) :
    finishStep N (U.config cfg) (pre.map U.trace) (U.trace tr) (U.fwd w) (U.solver s) =
      (U.solver (finishStep N cfg pre tr w s).1, (finishStep N cfg pre tr w s).2) := by
  unfold finishStep
  dsimp only
  rw [show (U.fwd w).success = w.success from rfl, show (U.fwd w).actual = U.c * w.actual from rfl,
    show (U.config cfg).costUpdateThre = U.c * cfg.costUpdateThre from rfl, ltb_scale,
    show ({ U.solver s with ctrl := (U.fwd w).cand } : Solver n m ℝ) = U.solver { s with ctrl := w.cand } from rfl,
    decrease_gauge, increase_gauge, show (U.config cfg).lambdaMax = U.c * cfg.lambdaMax from rfl,
    show (U.solver (s.increase cfg)).lambda = U.c * (s.increase cfg).lambda from rfl, ltb_scale]
  have key : ∀ q : Solver n m ℝ, ({ U.solver q with trace := pre.map U.trace ++ [{ U.trace tr with
        cost := totalCost N (U.solver q).ctrl, lambda := (U.solver q).lambda, dlambda := (U.solver q).dlambda }] } : Solver n m ℝ) =
      U.solver { q with trace := pre ++ [{ tr with cost := totalCost N q.ctrl, lambda := q.lambda, dlambda := q.dlambda }] } := by
    intro q
    rw [show (U.solver q).ctrl = U.ctrl q.ctrl from rfl, totalCost_gauge]
    unfold solver
    simp only [List.map_append, List.map_cons, List.map_nil]
    rfl
  split
  · exact Prod.ext (key _) rfl
  · exact Prod.ext (key _) rfl

omit hL hc in
theorem trace_new (iter : ℕ) : U.trace (Trace.new iter) = Trace.new iter := by
  unfold trace Trace.new
  simp only [mul_zero]

theorem procOnce_gauge (iter : ℕ) (s : Solver n m ℝ) :
    procOnce L N (U.config cfg) (U.stages S) iter (U.solver s) =
      (U.solver (procOnce L N cfg S iter s).1, (procOnce L N cfg S iter s).2) := by
  have hst : ({ U.solver s with
        trace := (U.solver s).trace ++ [Trace.new iter]
        derivs := calcDerivs N (U.config cfg) (U.stages S) (U.solver s).ctrl (U.solver s).derivs } : Solver n m ℝ) =
      U.solver { s with trace := s.trace ++ [Trace.new iter], derivs := calcDerivs N cfg S s.ctrl s.derivs } := by
    rw [show (U.solver s).ctrl = U.ctrl s.ctrl from rfl, show (U.solver s).derivs = U.derivs s.derivs from rfl, calcDerivs_gauge]
    unfold solver
    simp only [List.map_append, List.map_cons, List.map_nil, trace_new]
  unfold procOnce
  dsimp only
  rw [hst, bwSearch_gauge U hL hc]
  generalize bwSearch L N cfg S _ = r
  obtain ⟨s2, e⟩ := r
  cases e with
  | ok v =>
    cases v with
    | false => rfl
    | true =>
      have hls : lineSearch N (U.config cfg) (U.stages S) (U.solver s2) = U.fwd (lineSearch N cfg S s2) := by
        have h := tryAlphas_gauge (cfg := cfg) (N := N) (S := S) U s2 cfg.alphaList
          { success := false, alpha := 0, actual := 0, expected := 0, ratio := 0, cand := s2.ctrl }
        have hz : U.fwd { success := false, alpha := 0, actual := 0, expected := 0, ratio := 0, cand := s2.ctrl } =
            { success := false, alpha := 0, actual := 0, expected := 0, ratio := 0, cand := (U.solver s2).ctrl } := by
          unfold fwd
          simp only [mul_zero]
          rfl
        rw [hz] at h
        exact h
      have hk : kRelNorm N (U.solver s2) = kRelNorm N s2 := by
        unfold kRelNorm
        congr 1
        funext i a
        show fmax a (vnorm (U.R (m i) *ᵥ s2.gains.k i) / (vnorm (U.R (m i) *ᵥ s2.ctrl.u i) + 1)) = _
        rw [R_norm, R_norm]
      dsimp only
      rw [hk, hls]
      rw [show (U.solver s2).lambda = U.c * s2.lambda from rfl, show (U.config cfg).lambdaThre = U.c * cfg.lambdaThre from rfl,
        show (U.config cfg).kRelNormThre = cfg.kRelNormThre from rfl, ltb_scale]
      have ht : ∀ a b x y r : ℝ, ({ Trace.new iter with kRelNorm := r, alpha := a, actual := U.c * x, expected := U.c * y, ratio := b } : Trace ℝ) =
          U.trace { Trace.new iter with kRelNorm := r, alpha := a, actual := x, expected := y, ratio := b } := by
        intro a b x y r
        unfold trace Trace.new
        simp only [mul_zero]
      have ht0 : ∀ r : ℝ, ({ Trace.new iter with kRelNorm := r } : Trace ℝ) = U.trace { Trace.new iter with kRelNorm := r } := by
        intro r
        unfold trace Trace.new
        simp only [mul_zero]
      split
      · refine Prod.ext ?_ rfl
        show ({ U.solver s2 with trace := s.trace.map U.trace ++ [{ Trace.new iter with kRelNorm := kRelNorm N s2 }] } :
          Solver n m ℝ) = _
        refine (congrArg (fun t => ({ U.solver s2 with trace := s.trace.map U.trace ++ [t] } : Solver n m ℝ)) (ht0 _)).trans ?_
        unfold solver
        simp only [List.map_append, List.map_cons, List.map_nil]
      · have hf := finishStep_gauge (cfg := cfg) (N := N) U s.trace
          { Trace.new iter with
            kRelNorm := kRelNorm N s2, alpha := (lineSearch N cfg S s2).alpha, actual := (lineSearch N cfg S s2).actual,
            expected := (lineSearch N cfg S s2).expected, ratio := (lineSearch N cfg S s2).ratio } (lineSearch N cfg S s2) s2
        rw [← ht] at hf
        exact hf
  | _ => rfl

theorem optLoop_gauge (r iter : ℕ) (s : Solver n m ℝ) :
    optLoop L N (U.config cfg) (U.stages S) r iter (U.solver s) =
      (U.solver (optLoop L N cfg S r iter s).1, (optLoop L N cfg S r iter s).2) := by
  induction r generalizing iter s with
  | zero => rfl
  | succ r ih =>
    unfold optLoop
    rw [procOnce_gauge U hL hc]
    generalize procOnce L N cfg S iter s = q
    obtain ⟨t, e⟩ := q
    cases e with
    | ok v =>
      dsimp only
      split
      · rfl
      · exact ih _ _
    | _ => rfl

end Solve

theorem inputAt_gauge (us : List (Σ k : ℕ, Vec k ℝ)) (i : ℕ) :
    inputAt (m := m) (us.map U.inp) i = U.R (m i) *ᵥ inputAt (m := m) us i := by
  have hz : (fun _ => 0 : Vec (m i) ℝ) = U.R (m i) *ᵥ (fun _ => 0 : Vec (m i) ℝ) := (mulVec_zero (U.R (m i))).symm
  unfold inputAt
  rw [List.getElem?_map]
  cases us[i]? with
  | none => exact hz
  | some u =>
    obtain ⟨k, v⟩ := u
    simp only [Option.map_some, inp]
    split
    · rename_i h
      subst h
      rfl
    · exact hz

end Gauge

section Solve
variable {n : ℕ} {md : ℝ → ℕ} {P : Callbacks n md} {L : LLT ℝ} {cfg : Config ℝ}
  {lim : Option ((t : ℝ) → Vec (md t) ℝ × Vec (md t) ℝ)} {dt t0 : ℝ} {o : Obj n ℝ} {x0 : Vec n ℝ}
  {us : List (Σ k : ℕ, Vec k ℝ)} {scratch : Scratch n (fun i => md (timeAt t0 dt i)) ℝ}

/-- **C131** Without input limits `solve` commutes with a change of the unit of the cost and of the input axes. -/
theorem C131_units (U : Gauge) (hL : U.Fits L) (hc : cfg.withConstraint = false) :
    solve L (U.callbacks P) lim dt (U.config cfg) (U.obj o) t0 (U.scratch scratch) x0 (us.map U.inp) =
      (U.obj (solve L P lim dt cfg o t0 scratch x0 us).1, (solve L P lim dt cfg o t0 scratch x0 us).2) := by
  have hS : stagesOf (U.callbacks P) lim t0 dt us.length = U.stages (stagesOf P lim t0 dt us.length) := rfl
  have hf : (us.map U.inp).map Sigma.fst = us.map Sigma.fst := by rw [List.map_map]; rfl
  unfold solve
  rw [List.length_map, hf, show (U.config cfg).horizon = cfg.horizon from rfl]
  split
  · rfl
  · split
    · rfl
    · have hinit : initSolver us.length (U.config cfg) (stagesOf (U.callbacks P) lim t0 dt us.length) x0 (inputAt (us.map U.inp))
          (U.scratch scratch).gains (U.scratch scratch).derivs (U.scratch scratch).dV0 (U.scratch scratch).dV1 =
          U.solver (initSolver us.length cfg (stagesOf P lim t0 dt us.length) x0 (inputAt us) scratch.gains scratch.derivs scratch.dV0
            scratch.dV1) := by
        unfold initSolver
        dsimp only
        rw [hS, U.rollout_gauge x0 (fun i _ => inputAt (m := fun i => md (timeAt t0 dt i)) us i)
          (fun i _ => inputAt (m := fun i => md (timeAt t0 dt i)) (us.map U.inp) i) (fun i _ => U.inputAt_gauge us i), U.totalCost_gauge]
        unfold Gauge.solver
        simp only [List.map_cons, List.map_nil, Gauge.trace, Trace.new, mul_zero]
        rfl
      dsimp only
      rw [hinit, hS, U.optLoop_gauge hL hc, show (U.config cfg).maxIter = cfg.maxIter from rfl]
      refine Prod.ext ?_ rfl
      simp [Gauge.obj, Ctrl.out, Gauge.ctrl, Gauge.solver, Function.comp_def, Gauge.inp]

/-- The state of the receding-horizon loop in the new units. -/
noncomputable def Gauge.mpc (U : Gauge) (s : Mpc n ℝ) : Mpc n ℝ :=
  { s with us := s.us.map U.inp, obj := U.obj s.obj, log := s.log.map fun l => { l with u := U.inp l.u } }

variable {cfgs : ℕ → Config ℝ} {scr : ℕ → (t : ℝ) → Scratch n (fun i => md (timeAt t dt i)) ℝ}
  {shift : ℝ → List (Σ k : ℕ, Vec k ℝ) → Res (List (Σ k : ℕ, Vec k ℝ))} {endT : ℝ}

/-- **C131** The receding-horizon loops commute with a change of the unit of the cost and of the input axes: the same states are visited. -/
theorem C131_loop (U : Gauge) (hL : U.Fits L) (hc : ∀ k, (cfgs k).withConstraint = false)
    (hsh : ∀ t us, shift t (us.map U.inp) = (shift t us).map (List.map U.inp)) :
    mpcLoop L (U.callbacks P) lim dt (fun k => U.config (cfgs k)) (fun k t => U.scratch (scr k t)) shift endT (U.obj o) t0 x0
        (us.map U.inp) =
      (mpcLoop L P lim dt cfgs scr shift endT o t0 x0 us).map U.mpc := by
  have hstep : ∀ s : Mpc n ℝ, mpcStep L (U.callbacks P) lim dt (fun k => U.config (cfgs k)) (fun k t => U.scratch (scr k t)) shift endT
      (U.mpc s) = (mpcStep L P lim dt cfgs scr shift endT s).map U.mpc (Res.map U.mpc) := by
    intro s
    unfold mpcStep
    rw [show (U.mpc s).t = s.t from rfl, show (U.mpc s).k = s.k from rfl, show (U.mpc s).obj = U.obj s.obj from rfl,
      show (U.mpc s).x = s.x from rfl, show (U.mpc s).us = s.us.map U.inp from rfl, C131_units U hL (hc s.k)]
    split
    · generalize solve L P lim dt (cfgs s.k) s.obj s.t (scr s.k s.t) s.x s.us = r
      obtain ⟨o1, e⟩ := r
      cases e with
      | ok v =>
        dsimp only
        rw [show (U.obj o1).control.us = o1.control.us.map U.inp from rfl,
          show (U.obj o1).control.xs = o1.control.xs from rfl, List.getElem?_map, hsh]
        cases o1.control.xs[0]? with
        | none => rfl
        | some y0 =>
          cases o1.control.us[0]? with
          | none => rfl
          | some v0 =>
            cases o1.control.xs[1]? with
            | none => rfl
            | some y1 =>
              cases shift s.t o1.control.us with
              | ok us' =>
                simp [Sum.map, Gauge.mpc, Res.map]
              | _ => rfl
      | _ => rfl
    · rfl
  unfold mpcLoop loopR
  have := loopM_map U.mpc (Res.map U.mpc) hstep { k := 0, t := t0, x := x0, us := us, obj := o, log := [] }
  have h2 : loopM (mpcStep L (U.callbacks P) lim dt (fun k => U.config (cfgs k)) (fun k t => U.scratch (scr k t)) shift endT)
    { k := 0, t := t0, x := x0, us := us.map U.inp, obj := U.obj o, log := [] } = _ := this
  rw [h2]
  generalize loopM (mpcStep L P lim dt cfgs scr shift endT) _ = q
  cases q with
  | none => rfl
  | some r => cases r <;> rfl

end Solve

end Nmpc.DDP
