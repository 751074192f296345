import Verif.DDP.Mpc
import Verif.DDP.Gain
import Verif.BoxQP.Mirror

/-!
# C126: DDP does not depend on the coordinates of the state

In exact arithmetic, for an affine change `y = T x + b` of the coordinates of the state, `DDPSolver::solve` on the transformed problem
returns the transformed states with the same inputs, the same value and the same trace, with or without input limits.  With
`reg_type = 2` the matrix `T` must be orthogonal.
-/

namespace Nmpc.DDP

set_option linter.unusedSectionVars false

open Matrix

/-- An affine change of coordinates `y = T x + b` with `x = Ti (y - b)`. -/
structure Coord (n : ℕ) where
  T : Mat n n ℝ
  Ti : Mat n n ℝ
  b : Vec n ℝ
  inv : Ti * T = 1

namespace Coord
variable {n k : ℕ} {m : ℕ → ℕ} (C : Coord n)

theorem inv' : C.T * C.Ti = 1 := mul_eq_one_comm.1 C.inv

theorem invT : C.Tᵀ * C.Tiᵀ = 1 := by rw [← transpose_mul, C.inv, transpose_one]

theorem invT' : C.Tiᵀ * C.Tᵀ = 1 := by rw [← transpose_mul, C.inv', transpose_one]

/-- New coordinates. -/
noncomputable def into (x : Vec n ℝ) : Vec n ℝ := C.T *ᵥ x + C.b

/-- Old coordinates. -/
noncomputable def back (y : Vec n ℝ) : Vec n ℝ := C.Ti *ᵥ (y - C.b)

@[simp] theorem back_into (x : Vec n ℝ) : C.back (C.into x) = x := by
  rw [back, into, add_sub_cancel_right, mulVec_mulVec, C.inv, one_mulVec]

noncomputable def F (d : FDeriv n k ℝ) : FDeriv n k ℝ := ⟨C.T * d.Fx * C.Ti, C.T * d.Fu⟩
noncomputable def Fi (d : FDeriv n k ℝ) : FDeriv n k ℝ := ⟨C.Ti * d.Fx * C.T, C.Ti * d.Fu⟩
noncomputable def L (d : LDeriv n k ℝ) : LDeriv n k ℝ := ⟨C.Tiᵀ *ᵥ d.Lx, d.Lu, C.Tiᵀ * d.Lxx * C.Ti, d.Luu, C.Tiᵀ * d.Lxu⟩
noncomputable def Li (d : LDeriv n k ℝ) : LDeriv n k ℝ := ⟨C.Tᵀ *ᵥ d.Lx, d.Lu, C.Tᵀ * d.Lxx * C.T, d.Luu, C.Tᵀ * d.Lxu⟩
noncomputable def V (d : VDeriv n ℝ) : VDeriv n ℝ := ⟨C.Tiᵀ *ᵥ d.Vx, C.Tiᵀ * d.Vxx * C.Ti⟩
noncomputable def Vi (d : VDeriv n ℝ) : VDeriv n ℝ := ⟨C.Tᵀ *ᵥ d.Vx, C.Tᵀ * d.Vxx * C.T⟩

theorem sand {A B P Q : Mat n n ℝ} (X : Mat n n ℝ) (h1 : A * P = 1) (h2 : Q * B = 1) : A * (P * X * Q) * B = X := by
  rw [show A * (P * X * Q) * B = (A * P) * X * (Q * B) by simp only [Matrix.mul_assoc], h1, h2, Matrix.one_mul, Matrix.mul_one]

@[simp] theorem Fi_F (d : FDeriv n k ℝ) : C.Fi (C.F d) = d := by
  unfold F Fi
  dsimp only
  rw [sand _ C.inv C.inv, ← Matrix.mul_assoc, C.inv, Matrix.one_mul]

@[simp] theorem Li_L (d : LDeriv n k ℝ) : C.Li (C.L d) = d := by
  unfold L Li
  dsimp only
  rw [sand _ C.invT C.inv, ← Matrix.mul_assoc, mulVec_mulVec, C.invT, one_mulVec, Matrix.one_mul]

@[simp] theorem Vi_V (d : VDeriv n ℝ) : C.Vi (C.V d) = d := by
  unfold V Vi
  dsimp only
  rw [sand _ C.invT C.inv, mulVec_mulVec, C.invT, one_mulVec]

noncomputable def stages (S : Stages n m ℝ) : Stages n m ℝ where
  f i y u := C.into (S.f i (C.back y) u)
  l i y u := S.l i (C.back y) u
  φ y := S.φ (C.back y)
  df i y u d := C.F (S.df i (C.back y) u (C.Fi d))
  df2 i y u d := C.F (S.df2 i (C.back y) u (C.Fi d))
  dl i y u d := C.L (S.dl i (C.back y) u (C.Li d))
  dφ y d := C.V (S.dφ (C.back y) (C.Vi d))
  lim := S.lim

noncomputable def ctrl (c : Ctrl n m ℝ) : Ctrl n m ℝ := { c with x := fun i => C.into (c.x i) }

noncomputable def gains (g : Gains n m ℝ) : Gains n m ℝ := { g with K := fun i => g.K i * C.Ti }

noncomputable def derivs (d : Derivs n m ℝ) : Derivs n m ℝ where
  F i := C.F (d.F i)
  L i := C.L (d.L i)
  V := C.V d.V

noncomputable def Q (q : QData n k ℝ) : QData n k ℝ :=
  { q with Qx := C.Tiᵀ *ᵥ q.Qx, Qux := q.Qux * C.Ti, Qxx := C.Tiᵀ * q.Qxx * C.Ti, QuxReg := q.QuxReg * C.Ti }

noncomputable def bw (s : BwState n m ℝ) : BwState n m ℝ := { s with V := C.V s.V, gains := C.gains s.gains }

noncomputable def solver (s : Solver n m ℝ) : Solver n m ℝ :=
  { s with ctrl := C.ctrl s.ctrl, gains := C.gains s.gains, derivs := C.derivs s.derivs }

noncomputable def fwd (w : Fwd n m ℝ) : Fwd n m ℝ := { w with cand := C.ctrl w.cand }

noncomputable def scratch (s : Scratch n m ℝ) : Scratch n m ℝ := { s with gains := C.gains s.gains, derivs := C.derivs s.derivs }

/-- The transformed states; inputs, costs and trace are the same. -/
noncomputable def obj (o : Obj n ℝ) : Obj n ℝ := { o with control := { o.control with xs := o.control.xs.map C.into } }

/-- The transformed problem: dynamics `T f(t, x, u) + b`, costs `l(t, x, u)`, `φ(t, x)` at `x = T⁻¹ (y - b)`; derivatives by the chain
rule. -/
noncomputable def callbacks {md : ℝ → ℕ} (P : Callbacks n md) : Callbacks n md where
  stateEq t y u := C.into (P.stateEq t (C.back y) u)
  runningCost t y u := P.runningCost t (C.back y) u
  terminalCost t y := P.terminalCost t (C.back y)
  stateEqDeriv t y u d := C.F (P.stateEqDeriv t (C.back y) u (C.Fi d))
  stateEqDeriv2 t y u d := C.F (P.stateEqDeriv2 t (C.back y) u (C.Fi d))
  runningCostDeriv t y u d := C.L (P.runningCostDeriv t (C.back y) u (C.Li d))
  terminalCostDeriv t y d := C.V (P.terminalCostDeriv t (C.back y) (C.Vi d))

variable {L : LLT ℝ} {cfg : Config ℝ} {N : ℕ} {S : Stages n m ℝ}

theorem rollout_coord (x0 : Vec n ℝ) (pol pol' : (i : ℕ) → Vec n ℝ → Vec (m i) ℝ) (hp : ∀ i x, pol' i (C.into x) = pol i x) :
    rollout N (C.stages S) (C.into x0) pol' = C.ctrl (rollout N S x0 pol) := by
  have hx : ∀ i, rollX (C.stages S) (C.into x0) pol' i = C.into (rollX S x0 pol i) := by
    intro i
    induction i with
    | zero => rfl
    | succ i ih =>
      simp only [rollX]
      rw [ih, hp]
      show C.into (S.f i (C.back (C.into _)) _) = _
      rw [back_into]
  unfold rollout ctrl
  congr 1
  · funext i; exact hx i
  · funext i; rw [hx, hp]
  · funext i
    rw [hx, hp]
    show (if i < N then S.l i (C.back (C.into _)) _ else S.φ (C.back (C.into _))) = _
    rw [back_into]

theorem into_sub (x y : Vec n ℝ) : C.into x - C.into y = C.T *ᵥ (x - y) := by
  rw [into, into, add_sub_add_right_eq_sub, mulVec_sub]

theorem forwardPass_coord (c : Ctrl n m ℝ) (g : Gains n m ℝ) (a : ℝ) :
    forwardPass N (C.stages S) (C.ctrl c) (C.gains g) a = C.ctrl (forwardPass N S c g a) := by
  refine rollout_coord C _ _ _ fun i x => ?_
  show c.u i + smulv a (g.k i) + FOps.mulVec (g.K i * C.Ti) (C.into x - C.into (c.x i)) = _
  rw [into_sub, mulVec_real, mulVec_mulVec, Matrix.mul_assoc, C.inv, Matrix.mul_one]
  rfl

theorem calcDerivs_coord (c : Ctrl n m ℝ) (d : Derivs n m ℝ) :
    calcDerivs N cfg (C.stages S) (C.ctrl c) (C.derivs d) = C.derivs (calcDerivs N cfg S c d) := by
  unfold calcDerivs derivs
  dsimp only
  congr 1
  · funext i
    split
    · show (if cfg.useSecond = true then C.F (S.df2 i (C.back (C.into (c.x i))) (c.u i) (C.Fi (C.F (d.F i))))
        else C.F (S.df i (C.back (C.into (c.x i))) (c.u i) (C.Fi (C.F (d.F i))))) = _
      rw [back_into, Fi_F]
      split <;> rfl
    · rfl
  · funext i
    split
    · show C.L (S.dl i (C.back (C.into (c.x i))) (c.u i) (C.Li (C.L (d.L i)))) = _
      rw [back_into, Li_L]
    · rfl
  · show C.V (S.dφ (C.back (C.into (c.x N))) (C.Vi (C.V d.V))) = _
    rw [back_into, Vi_V]

theorem calcQ_coord (h2 : cfg.regType = 2 → C.Tiᵀ * C.Ti = 1) (lambda : ℝ) (F : FDeriv n k ℝ) (l : LDeriv n k ℝ) (V : VDeriv n ℝ) :
    calcQ cfg lambda (C.F F) (C.L l) (C.V V) = C.Q (calcQ cfg lambda F l V) := by
  have hreg : (if cfg.regType = 2 then addDiag (C.Tiᵀ * V.Vxx * C.Ti) lambda else C.Tiᵀ * V.Vxx * C.Ti) =
      C.Tiᵀ * (if cfg.regType = 2 then addDiag V.Vxx lambda else V.Vxx) * C.Ti := by
    split
    · rename_i h
      rw [addDiag_real, addDiag_real, Matrix.mul_add, Matrix.add_mul, Matrix.mul_smul, Matrix.smul_mul, Matrix.mul_one, h2 h]
    · rfl
  have e1 : ∀ {a b : ℕ} (A : Mat n a ℝ) (X : Mat n n ℝ) (B : Mat n b ℝ),
      (C.T * A)ᵀ * (C.Tiᵀ * X * C.Ti) * (C.T * B) = Aᵀ * X * B := by
    intro a b A X B
    rw [transpose_mul, show Aᵀ * C.Tᵀ * (C.Tiᵀ * X * C.Ti) * (C.T * B) = Aᵀ * (C.Tᵀ * C.Tiᵀ) * X * ((C.Ti * C.T) * B) by
      simp only [Matrix.mul_assoc], C.invT, C.inv, Matrix.mul_one, Matrix.one_mul]
  have e2 : ∀ {a : ℕ} (A : Mat n a ℝ) (v : Vec n ℝ), (C.T * A)ᵀ *ᵥ (C.Tiᵀ *ᵥ v) = Aᵀ *ᵥ v := by
    intro a A v
    rw [mulVec_mulVec, transpose_mul, Matrix.mul_assoc, C.invT, Matrix.mul_one]
  unfold calcQ
  simp only [matMul_real, mulVec_real]
  unfold Coord.Q Coord.F Coord.L Coord.V
  dsimp only
  rw [hreg]
  generalize (if cfg.regType = 2 then addDiag V.Vxx lambda else V.Vxx) = W
  congr 1
  · rw [e2]
  · rw [show (C.T * F.Fx * C.Ti)ᵀ *ᵥ (C.Tiᵀ *ᵥ V.Vx) = C.Tiᵀ *ᵥ ((C.T * F.Fx)ᵀ *ᵥ (C.Tiᵀ *ᵥ V.Vx)) by
      rw [transpose_mul (C.T * F.Fx), ← mulVec_mulVec], e2, mulVec_add]
  · rw [show (C.T * F.Fu)ᵀ * (C.Tiᵀ * V.Vxx * C.Ti) * (C.T * F.Fx * C.Ti) =
      (C.T * F.Fu)ᵀ * (C.Tiᵀ * V.Vxx * C.Ti) * (C.T * F.Fx) * C.Ti by simp only [Matrix.mul_assoc], e1, transpose_mul, transpose_transpose,
      Matrix.add_mul]
  · rw [e1]
  · rw [show (C.T * F.Fx * C.Ti)ᵀ * (C.Tiᵀ * V.Vxx * C.Ti) * (C.T * F.Fx * C.Ti) =
      C.Tiᵀ * ((C.T * F.Fx)ᵀ * (C.Tiᵀ * V.Vxx * C.Ti) * (C.T * F.Fx)) * C.Ti by
        rw [transpose_mul (C.T * F.Fx)]; simp only [Matrix.mul_assoc], e1, Matrix.mul_add, Matrix.add_mul]
  · rw [show (C.T * F.Fu)ᵀ * (C.Tiᵀ * W * C.Ti) * (C.T * F.Fx * C.Ti) =
      (C.T * F.Fu)ᵀ * (C.Tiᵀ * W * C.Ti) * (C.T * F.Fx) * C.Ti by simp only [Matrix.mul_assoc], e1, transpose_mul, transpose_transpose,
      Matrix.add_mul]
  · rw [e1]

theorem updateV_coord (Q : QData n k ℝ) (kv : Vec k ℝ) (K : Mat k n ℝ) :
    updateV (C.Q Q) kv (K * C.Ti) = C.V (updateV Q kv K) := by
  have hV : ∀ X : Mat n n ℝ, smulm (lit (1 / 2)) (C.Tiᵀ * X * C.Ti + (C.Tiᵀ * X * C.Ti)ᵀ) =
      C.Tiᵀ * smulm (lit (1 / 2)) (X + Xᵀ) * C.Ti := by
    intro X
    simp only [smulm_real, transpose_mul, transpose_transpose, Matrix.mul_smul, Matrix.smul_mul, Matrix.mul_add, Matrix.add_mul,
      Matrix.mul_assoc]
  unfold updateV
  simp only [matMul_real, mulVec_real]
  unfold Coord.Q Coord.V
  dsimp only
  rw [← hV]
  congr 1
  · simp only [transpose_mul, mulVec_add, ← mulVec_mulVec]
  · congr 2 <;> simp only [transpose_mul, Matrix.mul_add, Matrix.add_mul, Matrix.mul_assoc]

theorem solveMat_mul (hL : ∀ {k : ℕ} (M : Mat k k ℝ), IsLinearMap ℝ (L.solve M)) {a b c : ℕ} (M : Mat a a ℝ) (B : Mat a b ℝ)
    (R : Mat b c ℝ) : L.solveMat M (B * R) = L.solveMat M B * R := by
  ext i j
  have h : (fun r => (B * R) r j) = ∑ q, R q j • fun r => B r q := by
    funext r
    rw [Finset.sum_apply, Matrix.mul_apply]
    exact Finset.sum_congr rfl fun q _ => mul_comm _ _
  have h2 := map_sum (IsLinearMap.mk' _ (hL M)) (fun q => R q j • fun r => B r q) Finset.univ
  simp only [IsLinearMap.mk'_apply] at h2
  rw [LLT.solveMat, h, h2, Finset.sum_apply, Matrix.mul_apply]
  refine Finset.sum_congr rfl fun q _ => ?_
  rw [(hL M).map_smul]
  exact mul_comm _ _

theorem scatterRows_mul (free : List (Fin k)) (A : Mat free.length n ℝ) (R : Mat n n ℝ) :
    scatterRows free (A * R) = scatterRows free A * R := by
  ext i j
  rw [Matrix.mul_apply]
  by_cases h : i ∈ free
  · simp only [scatterRows, h, dite_true, Matrix.mul_apply]
  · simp [scatterRows, h]

variable (hL : ∀ {k : ℕ} (M : Mat k k ℝ), IsLinearMap ℝ (L.solve M))
include hL

theorem stageGains_coord (c : Ctrl n m ℝ) (g : Gains n m ℝ) (i : ℕ) (Q : QData n (m i) ℝ) :
    stageGains L N cfg (C.stages S) (C.ctrl c) (C.gains g) i (C.Q Q) =
      (stageGains L N cfg S c g i Q).map (Option.map fun p => (p.1, (p.2 * C.Ti : Mat (m i) n ℝ))) := by
  unfold stageGains
  split
  · split
    · rw [show (C.stages S).lim = S.lim from rfl]
      cases S.lim with
      | none => rfl
      | some f =>
        dsimp only
        rw [show initialK N (C.gains g) i = initialK N g i from rfl, show (C.ctrl c).u = c.u from rfl]
        unfold constrainedGains
        rw [show (C.Q Q).QuuF = Q.QuuF from rfl, show (C.Q Q).Qu = Q.Qu from rfl, show (C.Q Q).QuxReg = Q.QuxReg * C.Ti from rfl]
        generalize BoxQP.solve L BoxQP.Config.default (freshQP (m i)) _ = q
        cases q with
        | ok r =>
          simp only [Res.bind_ok]
          split
          · rfl
          · split
            · cases r.obj.llt with
              | none => rfl
              | some p =>
                obtain ⟨j, M⟩ := p
                dsimp only
                split
                · have hr : rowsOf (Q.QuxReg * C.Ti) r.obj.free = rowsOf Q.QuxReg r.obj.free * C.Ti := rfl
                  simp only [Res.map, Res.bind_ok, Option.map_some]
                  rw [hr, solveMat_mul hL, smulm_real, smulm_real, ← Matrix.smul_mul, scatterRows_mul]
                · rfl
            · have hz : Matrix.of (fun _ _ => 0 : Fin (m i) → Fin n → ℝ) * C.Ti = fun _ _ => 0 := Matrix.zero_mul _
              exact congrArg (fun K => Res.ok (some (r.x, K))) hz.symm
        | _ => rfl
    · unfold unconstrainedGains
      rw [show (C.Q Q).QuuF = Q.QuuF from rfl, show (C.Q Q).Qu = Q.Qu from rfl, show (C.Q Q).QuxReg = Q.QuxReg * C.Ti from rfl]
      rw [solveMat_mul hL, smulm_real, smulm_real, ← Matrix.smul_mul]
      split <;> rfl
  · have hz : Matrix.of (fun _ _ => 0 : Fin (m i) → Fin n → ℝ) * C.Ti = fun _ _ => 0 := Matrix.zero_mul _
    exact congrArg (fun K => Res.ok (some ((fun _ => 0 : Vec (m i) ℝ), K))) hz.symm

variable (h2 : cfg.regType = 2 → C.Tiᵀ * C.Ti = 1)
include h2

theorem bwStage_coord (c : Ctrl n m ℝ) (d : Derivs n m ℝ) (lambda : ℝ) (i : ℕ) (b : BwState n m ℝ) :
    bwStage L N cfg (C.stages S) (C.ctrl c) (C.derivs d) lambda i (C.bw b) =
      (bwStage L N cfg S c d lambda i b).map fun p => (p.1, C.bw p.2) := by
  unfold bwStage
  split
  · rfl
  · have hQ : calcQ cfg lambda ((C.derivs d).F i) ((C.derivs d).L i) (C.bw b).V = C.Q (calcQ cfg lambda (d.F i) (d.L i) b.V) :=
      calcQ_coord C h2 _ _ _ _
    dsimp only
    rw [hQ, show (C.bw b).gains = C.gains b.gains from rfl, stageGains_coord C hL]
    generalize calcQ cfg lambda (d.F i) (d.L i) b.V = Q
    generalize stageGains L N cfg S c b.gains i Q = r
    cases r with
    | ok r =>
      cases r with
      | none => rfl
      | some p =>
        obtain ⟨kv, K⟩ := p
        simp only [Res.map, Res.bind_ok, Option.map_some]
        rw [updateV_coord]
        unfold bw gains
        simp only [Res.ok.injEq, Prod.mk.injEq, true_and, BwState.mk.injEq, Gains.mk.injEq]
        refine ⟨rfl, rfl, ?_⟩
        funext j
        by_cases hj : j = i
        · subst hj; simp
        · simp [Function.update_of_ne hj]
    | _ => rfl

theorem bwLoop_coord (c : Ctrl n m ℝ) (d : Derivs n m ℝ) (lambda : ℝ) (i : ℕ) (b : BwState n m ℝ) :
    bwLoop L N cfg (C.stages S) (C.ctrl c) (C.derivs d) lambda i (C.bw b) =
      (bwLoop L N cfg S c d lambda i b).map fun p => (p.1, C.bw p.2) := by
  induction i generalizing b with
  | zero => rfl
  | succ i ih =>
    unfold bwLoop
    rw [bwStage_coord C hL h2]
    generalize bwStage L N cfg S c d lambda i b = r
    cases r with
    | ok r =>
      obtain ⟨f, b'⟩ := r
      simp only [Res.map, Res.bind_ok]
      cases f with
      | true => simp only [if_true]; exact ih b'
      | false => rfl
    | _ => rfl

theorem bwRound_coord (s : Solver n m ℝ) :
    bwRound L N cfg (C.stages S) (C.solver s) = (bwRound L N cfg S s).map C.solver fun p => (C.solver p.1, p.2) := by
  unfold bwRound backwardPass
  have := bwLoop_coord (cfg := cfg) (N := N) (S := S) C hL h2 s.ctrl s.derivs s.lambda N
    { V := s.derivs.V, dV0 := 0, dV1 := 0, gains := s.gains }
  have h3 : bwLoop L N cfg (C.stages S) (C.solver s).ctrl (C.solver s).derivs (C.solver s).lambda N
    { V := (C.solver s).derivs.V, dV0 := 0, dV1 := 0, gains := (C.solver s).gains } = _ := this
  rw [h3]
  generalize bwLoop L N cfg S s.ctrl s.derivs s.lambda N _ = r
  cases r with
  | ok r =>
    obtain ⟨f, b'⟩ := r
    cases f with
    | true => rfl
    | false =>
      show (if ltb cfg.lambdaMax ((s.setBw b').increase cfg).lambda = true then _ else _) = _
      simp only
      split <;> rfl
  | _ => rfl

theorem bwSearch_coord (s : Solver n m ℝ) :
    bwSearch L N cfg (C.stages S) (C.solver s) = (C.solver (bwSearch L N cfg S s).1, (bwSearch L N cfg S s).2) := by
  unfold bwSearch
  rw [loopM_map C.solver (fun p : Solver n m ℝ × Res Bool => (C.solver p.1, p.2)) (bwRound_coord (cfg := cfg) (N := N) C hL h2)]
  cases loopM (bwRound L N cfg S) s <;> rfl

omit hL h2 in
theorem tryAlphas_coord (s : Solver n m ℝ) (as : List ℝ) (w : Fwd n m ℝ) :
    tryAlphas N cfg (C.stages S) (C.solver s) as (C.fwd w) = C.fwd (tryAlphas N cfg S s as w) := by
  induction as generalizing w with
  | nil => rfl
  | cons a as ih =>
    have ht : tryAlpha N cfg (C.stages S) (C.solver s) a = C.fwd (tryAlpha N cfg S s a) := by
      have h : forwardPass N (C.stages S) (C.solver s).ctrl (C.solver s).gains a = C.ctrl (forwardPass N S s.ctrl s.gains a) :=
        forwardPass_coord C _ _ _
      unfold tryAlpha
      dsimp only
      rw [h]
      rfl
    unfold tryAlphas
    dsimp only
    rw [ht]
    show (if (tryAlpha N cfg S s a).success = true then _ else _) = _
    split
    · rfl
    · exact ih _

omit hL h2 in
theorem finishStep_coord (pre : List (Trace ℝ)) (tr : Trace ℝ) (w : Fwd n m ℝ) (s : Solver n m ℝ) :
    finishStep N cfg pre tr (C.fwd w) (C.solver s) = (C.solver (finishStep N cfg pre tr w s).1, (finishStep N cfg pre tr w s).2) := by
  unfold finishStep
  dsimp only
  rw [show (C.fwd w).success = w.success from rfl]
  split <;> rfl

theorem procOnce_coord (iter : ℕ) (s : Solver n m ℝ) :
    procOnce L N cfg (C.stages S) iter (C.solver s) = (C.solver (procOnce L N cfg S iter s).1, (procOnce L N cfg S iter s).2) := by
  have hst : ({ C.solver s with
        trace := (C.solver s).trace ++ [Trace.new iter]
        derivs := calcDerivs N cfg (C.stages S) (C.solver s).ctrl (C.solver s).derivs } : Solver n m ℝ) =
      C.solver { s with trace := s.trace ++ [Trace.new iter], derivs := calcDerivs N cfg S s.ctrl s.derivs } := by
    show ({ C.solver s with
      trace := s.trace ++ [Trace.new iter], derivs := calcDerivs N cfg (C.stages S) (C.ctrl s.ctrl) (C.derivs s.derivs) } :
        Solver n m ℝ) = _
    rw [calcDerivs_coord]
    rfl
  unfold procOnce
  dsimp only
  rw [hst, bwSearch_coord C hL h2]
  generalize bwSearch L N cfg S _ = r
  obtain ⟨s2, e⟩ := r
  cases e with
  | ok v =>
    cases v with
    | false => rfl
    | true =>
      have hls : lineSearch N cfg (C.stages S) (C.solver s2) = C.fwd (lineSearch N cfg S s2) :=
        tryAlphas_coord C s2 cfg.alphaList { success := false, alpha := 0, actual := 0, expected := 0, ratio := 0, cand := s2.ctrl }
      have hk : kRelNorm N (C.solver s2) = kRelNorm N s2 := rfl
      dsimp only
      rw [hk, hls]
      show (if (ltb _ _ && ltb s2.lambda _) = true then _ else _) = _
      split
      · rfl
      · exact finishStep_coord C _ _ _ _
  | _ => rfl

theorem optLoop_coord (r iter : ℕ) (s : Solver n m ℝ) :
    optLoop L N cfg (C.stages S) r iter (C.solver s) = (C.solver (optLoop L N cfg S r iter s).1, (optLoop L N cfg S r iter s).2) := by
  induction r generalizing iter s with
  | zero => rfl
  | succ r ih =>
    unfold optLoop
    rw [procOnce_coord C hL h2]
    generalize procOnce L N cfg S iter s = q
    obtain ⟨t, e⟩ := q
    cases e with
    | ok v =>
      dsimp only
      split
      · rfl
      · exact ih _ _
    | _ => rfl

end Coord

section Solve
variable {n : ℕ} {md : ℝ → ℕ} {P : Callbacks n md} {L : LLT ℝ} {cfg : Config ℝ}
  {lim : Option ((t : ℝ) → Vec (md t) ℝ × Vec (md t) ℝ)} {dt t0 : ℝ} {o : Obj n ℝ} {x0 : Vec n ℝ}
  {us : List (Σ k : ℕ, Vec k ℝ)} {scratch : Scratch n (fun i => md (timeAt t0 dt i)) ℝ}

/-- **C126** `solve` commutes with affine changes of the coordinates of the state. -/
theorem C126_coordinates (C : Coord n) (hL : ∀ {k : ℕ} (M : Mat k k ℝ), IsLinearMap ℝ (L.solve M))
    (h2 : cfg.regType = 2 → C.Tiᵀ * C.Ti = 1) :
    solve L (C.callbacks P) lim dt cfg (C.obj o) t0 (C.scratch scratch) (C.into x0) us =
      (C.obj (solve L P lim dt cfg o t0 scratch x0 us).1, (solve L P lim dt cfg o t0 scratch x0 us).2) := by
  have hS : stagesOf (C.callbacks P) lim t0 dt us.length = C.stages (stagesOf P lim t0 dt us.length) := rfl
  unfold solve
  split
  · rfl
  · split
    · rfl
    · have hinit : initSolver us.length cfg (stagesOf (C.callbacks P) lim t0 dt us.length) (C.into x0) (inputAt us)
          (C.scratch scratch).gains (C.scratch scratch).derivs (C.scratch scratch).dV0 (C.scratch scratch).dV1 =
          C.solver (initSolver us.length cfg (stagesOf P lim t0 dt us.length) x0 (inputAt us) scratch.gains scratch.derivs scratch.dV0
            scratch.dV1) := by
        unfold initSolver
        dsimp only
        rw [hS, C.rollout_coord x0 (fun i _ => inputAt (m := fun i => md (timeAt t0 dt i)) us i)
          (fun i _ => inputAt (m := fun i => md (timeAt t0 dt i)) us i) (fun _ _ => rfl)]
        rfl
      dsimp only
      rw [hinit, hS, C.optLoop_coord hL h2]
      refine Prod.ext ?_ rfl
      simp [Coord.obj, Ctrl.out, Coord.ctrl, Coord.solver, Function.comp_def]

/-- The transformed state of the receding-horizon loop. -/
noncomputable def Coord.mpc (C : Coord n) (s : Mpc n ℝ) : Mpc n ℝ :=
  { s with x := C.into s.x, obj := C.obj s.obj, log := s.log.map fun l => { l with x := C.into l.x } }

variable {cfgs : ℕ → Config ℝ} {scr : ℕ → (t : ℝ) → Scratch n (fun i => md (timeAt t dt i)) ℝ}
  {shift : ℝ → List (Σ k : ℕ, Vec k ℝ) → Res (List (Σ k : ℕ, Vec k ℝ))} {endT : ℝ}

/-- **C126** The receding-horizon loops commute with affine changes of the coordinates of the state: the same inputs are applied. -/
theorem C126_loop (C : Coord n) (hL : ∀ {k : ℕ} (M : Mat k k ℝ), IsLinearMap ℝ (L.solve M))
    (h2 : ∀ k, (cfgs k).regType = 2 → C.Tiᵀ * C.Ti = 1) :
    mpcLoop L (C.callbacks P) lim dt cfgs (fun k t => C.scratch (scr k t)) shift endT (C.obj o) t0 (C.into x0) us =
      (mpcLoop L P lim dt cfgs scr shift endT o t0 x0 us).map C.mpc := by
  have hstep : ∀ s : Mpc n ℝ, mpcStep L (C.callbacks P) lim dt cfgs (fun k t => C.scratch (scr k t)) shift endT (C.mpc s) =
      (mpcStep L P lim dt cfgs scr shift endT s).map C.mpc (Res.map C.mpc) := by
    intro s
    unfold mpcStep
    rw [show (C.mpc s).t = s.t from rfl, show (C.mpc s).k = s.k from rfl, show (C.mpc s).obj = C.obj s.obj from rfl,
      show (C.mpc s).x = C.into s.x from rfl, show (C.mpc s).us = s.us from rfl, C126_coordinates C hL (h2 s.k)]
    split
    · generalize solve L P lim dt (cfgs s.k) s.obj s.t (scr s.k s.t) s.x s.us = r
      obtain ⟨o1, e⟩ := r
      cases e with
      | ok v =>
        dsimp only
        rw [show (C.obj o1).control.us = o1.control.us from rfl,
          show (C.obj o1).control.xs = o1.control.xs.map C.into from rfl, List.getElem?_map, List.getElem?_map]
        cases o1.control.xs[0]? with
        | none => rfl
        | some y0 =>
          cases o1.control.us[0]? with
          | none => rfl
          | some v0 =>
            cases o1.control.xs[1]? with
            | none => rfl
            | some y1 =>
              cases shift s.t o1.control.us with
              | ok us' =>
                simp [Sum.map, Coord.mpc]
              | _ => rfl
      | _ => rfl
    · rfl
  unfold mpcLoop loopR
  have := loopM_map C.mpc (Res.map C.mpc) hstep { k := 0, t := t0, x := x0, us := us, obj := o, log := [] }
  have h2 : loopM (mpcStep L (C.callbacks P) lim dt cfgs (fun k t => C.scratch (scr k t)) shift endT)
    { k := 0, t := t0, x := C.into x0, us := us, obj := C.obj o, log := [] } = _ := this
  rw [h2]
  generalize loopM (mpcStep L P lim dt cfgs scr shift endT) _ = q
  cases q with
  | none => rfl
  | some r => cases r <;> rfl

end Solve

end Nmpc.DDP
