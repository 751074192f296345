import Verif.DDP.CompactProps
import Mathlib.Topology.Algebra.Group.Matrix

/-!
# DDP steps with large regularisation (helpers for C150)

With `τ = 1/λ` the gains, the value function and the candidate of the full step are functions of `τ` and of the inputs that are continuous at `τ = 0`.
-/

set_option linter.unusedSectionVars false

namespace Nmpc.DDP

open Matrix Finset Filter Topology

section
variable {X : Type} [TopologicalSpace X] {p : X} {a b c : ℕ}

theorem contAt_mul {A : X → Mat a b ℝ} {B : X → Mat b c ℝ} (hA : ContinuousAt A p) (hB : ContinuousAt B p) : ContinuousAt (fun q => A q * B q) p := by
  have : Continuous fun z : Mat a b ℝ × Mat b c ℝ => z.1 * z.2 := continuous_fst.matrix_mul continuous_snd
  exact (this.continuousAt (x := (A p, B p))).comp (f := fun q => (A q, B q)) (hA.prodMk hB)

theorem contAt_mulVec {A : X → Mat a b ℝ} {B : X → Vec b ℝ} (hA : ContinuousAt A p) (hB : ContinuousAt B p) : ContinuousAt (fun q => A q *ᵥ B q) p := by
  have : Continuous fun z : Mat a b ℝ × Vec b ℝ => z.1 *ᵥ z.2 := continuous_fst.matrix_mulVec continuous_snd
  exact (this.continuousAt (x := (A p, B p))).comp (f := fun q => (A q, B q)) (hA.prodMk hB)

theorem contAt_transpose {A : X → Mat a b ℝ} (hA : ContinuousAt A p) : ContinuousAt (fun q => (A q)ᵀ) p := by
  have : Continuous fun z : Mat a b ℝ => zᵀ := continuous_id.matrix_transpose
  exact (this.continuousAt (x := A p)).comp (f := A) hA

theorem contAt_dot {A B : X → Vec b ℝ} (hA : ContinuousAt A p) (hB : ContinuousAt B p) : ContinuousAt (fun q => A q ⬝ᵥ B q) p := by
  have : Continuous fun z : Vec b ℝ × Vec b ℝ => z.1 ⬝ᵥ z.2 := continuous_fst.dotProduct continuous_snd
  exact (this.continuousAt (x := (A p, B p))).comp (f := fun q => (A q, B q)) (hA.prodMk hB)

theorem contAt_inv {A : X → Mat a a ℝ} (hA : ContinuousAt A p) (h1 : (A p).det ≠ 0) : ContinuousAt (fun q => (A q)⁻¹) p := by
  have h2 : Continuous fun z : Mat a a ℝ => z.det := continuous_id.matrix_det
  have h3 : Continuous fun z : Mat a a ℝ => z.adjugate := continuous_id.matrix_adjugate
  have h4 : ContinuousAt (fun z : Mat a a ℝ => z⁻¹) (A p) := by
    simp only [Matrix.inv_def, Ring.inverse_eq_inv']
    exact (h2.continuousAt.inv₀ h1).smul h3.continuousAt
  exact h4.comp (f := A) hA

end

section
variable {n k : ℕ}

/-- `Qu`, `Quu`, `Qux` of a stage. -/
noncomputable def stQu (F : FDeriv n k ℝ) (L : LDeriv n k ℝ) (V : VDeriv n ℝ) : Vec k ℝ := L.Lu + F.Fuᵀ *ᵥ V.Vx
/-- See `stQu`. -/
noncomputable def stQuu (F : FDeriv n k ℝ) (L : LDeriv n k ℝ) (V : VDeriv n ℝ) : Mat k k ℝ := L.Luu + F.Fuᵀ * V.Vxx * F.Fu
/-- See `stQu`. -/
noncomputable def stQux (F : FDeriv n k ℝ) (L : LDeriv n k ℝ) (V : VDeriv n ℝ) : Mat k n ℝ := L.Lxuᵀ + F.Fuᵀ * V.Vxx * F.Fx

/-- `-k/τ` and `-K/τ` for the regularisation `1/τ`. -/
noncomputable def stDir (τ : ℝ) (F : FDeriv n k ℝ) (L : LDeriv n k ℝ) (V : VDeriv n ℝ) : Vec k ℝ := (1 + τ • stQuu F L V)⁻¹ *ᵥ stQu F L V
/-- See `stDir`. -/
noncomputable def stFb (τ : ℝ) (F : FDeriv n k ℝ) (L : LDeriv n k ℝ) (V : VDeriv n ℝ) : Mat k n ℝ := (1 + τ • stQuu F L V)⁻¹ * stQux F L V

/-- The value function of a stage with the gains of regularisation `1/τ`. -/
noncomputable def stV (τ : ℝ) (F : FDeriv n k ℝ) (L : LDeriv n k ℝ) (V : VDeriv n ℝ) : VDeriv n ℝ :=
  let K := -(τ • stFb τ F L V)
  let kv := -(τ • stDir τ F L V)
  let W := L.Lxx + F.Fxᵀ * V.Vxx * F.Fx + Kᵀ * stQuu F L V * K + Kᵀ * stQux F L V + (stQux F L V)ᵀ * K
  { Vx := L.Lx + F.Fxᵀ *ᵥ V.Vx + (Kᵀ * stQuu F L V) *ᵥ kv + Kᵀ *ᵥ stQu F L V + (stQux F L V)ᵀ *ᵥ kv
    Vxx := (1 / 2 : ℝ) • (W + Wᵀ) }

/-- The gains of the code are those of `stDir`, `stFb`. -/
theorem gains_eq {L : LLT ℝ} (hL : L.Exact) {cfg : Config ℝ} (hr : cfg.regType = 1) {lam : ℝ} (hl : 0 < lam) (F : FDeriv n k ℝ) (Ld : LDeriv n k ℝ)
    (V : VDeriv n ℝ) (hpd : (stQuu F Ld V + lam • 1).PosDef) :
    unconstrainedGains L (calcQ cfg lam F Ld V) = some (-(lam⁻¹ • stDir lam⁻¹ F Ld V), -(lam⁻¹ • stFb lam⁻¹ F Ld V)) := by
  have hQ : (calcQ cfg lam F Ld V).QuuF = stQuu F Ld V + lam • 1 := by
    simp only [calcQ, hr, if_true, matMul_real]
    ext i j
    simp only [addDiag, stQuu, Matrix.add_apply, Matrix.smul_apply, Matrix.one_apply, smul_eq_mul]
    split <;> simp_all
  have hQu : (calcQ cfg lam F Ld V).Qu = stQu F Ld V := by simp [calcQ, stQu]
  have hQux : (calcQ cfg lam F Ld V).QuxReg = stQux F Ld V := by simp [calcQ, stQux, hr]
  have hscale : stQuu F Ld V + lam • 1 = lam • (1 + lam⁻¹ • stQuu F Ld V) := by
    rw [smul_add, smul_smul, mul_inv_cancel₀ hl.ne', one_smul, add_comm]
  have hdet : IsUnit (1 + lam⁻¹ • stQuu F Ld V).det := by
    have := ((Matrix.isUnit_iff_isUnit_det _).1 hpd.isUnit).ne_zero
    rw [hscale, det_smul] at this
    exact (right_ne_zero_of_mul this).isUnit
  have hinj : ∀ x y : Vec k ℝ, (stQuu F Ld V + lam • 1) *ᵥ x = (stQuu F Ld V + lam • 1) *ᵥ y → x = y :=
    fun x y h => Matrix.mulVec_injective_iff_isUnit.2 hpd.isUnit h
  have hsol : ∀ b : Vec k ℝ, L.solve (stQuu F Ld V + lam • 1) b = lam⁻¹ • ((1 + lam⁻¹ • stQuu F Ld V)⁻¹ *ᵥ b) := fun b => by
    refine hinj _ _ ?_
    rw [hL.solve_eq _ _ hpd, hscale, mulVec_smul, smul_mulVec, smul_smul, inv_mul_cancel₀ hl.ne', one_smul, mulVec_mulVec,
      mul_nonsing_inv _ hdet, one_mulVec]
  have hok : L.ok (stQuu F Ld V + lam • 1) = true := (hL.ok_iff _ (by simpa using hpd.1)).2 hpd
  rw [unconstrainedGains, hQ, if_pos hok, hQu, hQux]
  congr 2
  · rw [smulv_real, hsol, stDir]; simp
  · ext i j
    have := congrFun (hsol fun r => stQux F Ld V r j) i
    simp only [smulm, LLT.solveMat, Matrix.neg_apply, Matrix.smul_apply, stFb]
    rw [this]
    simp [Matrix.mul_apply, mulVec, dotProduct]

theorem stV_eq {cfg : Config ℝ} (lam : ℝ) (F : FDeriv n k ℝ) (Ld : LDeriv n k ℝ) (V : VDeriv n ℝ) :
    updateV (calcQ cfg lam F Ld V) (-(lam⁻¹ • stDir lam⁻¹ F Ld V)) (-(lam⁻¹ • stFb lam⁻¹ F Ld V)) = stV lam⁻¹ F Ld V := by
  simp only [updateV, calcQ, stV, matMul_real, mulVec_real, smulm_real, lit_real, stQu, stQuu, stQux]
  congr 2
  push_cast
  rfl

variable {X : Type} [TopologicalSpace X] {p : X}

/-- Continuity of the derivatives of a stage that depend on a parameter. -/
structure StageCont (F : X → FDeriv n k ℝ) (L : X → LDeriv n k ℝ) (V : X → VDeriv n ℝ) (p : X) : Prop where
  fx : ContinuousAt (fun q => (F q).Fx) p
  fu : ContinuousAt (fun q => (F q).Fu) p
  lx : ContinuousAt (fun q => (L q).Lx) p
  lu : ContinuousAt (fun q => (L q).Lu) p
  lxx : ContinuousAt (fun q => (L q).Lxx) p
  luu : ContinuousAt (fun q => (L q).Luu) p
  lxu : ContinuousAt (fun q => (L q).Lxu) p
  vx : ContinuousAt (fun q => (V q).Vx) p
  vxx : ContinuousAt (fun q => (V q).Vxx) p

variable {F : X → FDeriv n k ℝ} {Ld : X → LDeriv n k ℝ} {V : X → VDeriv n ℝ} {τ : X → ℝ}

theorem StageCont.qu (h : StageCont F Ld V p) : ContinuousAt (fun q => stQu (F q) (Ld q) (V q)) p :=
  h.lu.add (contAt_mulVec (contAt_transpose h.fu) h.vx)

theorem StageCont.quu (h : StageCont F Ld V p) : ContinuousAt (fun q => stQuu (F q) (Ld q) (V q)) p :=
  h.luu.add (contAt_mul (contAt_mul (contAt_transpose h.fu) h.vxx) h.fu)

theorem StageCont.qux (h : StageCont F Ld V p) : ContinuousAt (fun q => stQux (F q) (Ld q) (V q)) p :=
  (contAt_transpose h.lxu).add (contAt_mul (contAt_mul (contAt_transpose h.fu) h.vxx) h.fx)

theorem StageCont.inv (h : StageCont F Ld V p) (ht : ContinuousAt τ p) (h0 : τ p = 0) :
    ContinuousAt (fun q => (1 + τ q • stQuu (F q) (Ld q) (V q))⁻¹) p :=
  contAt_inv (continuousAt_const.add (ht.smul h.quu)) (by rw [h0, zero_smul, add_zero, det_one]; exact one_ne_zero)

theorem StageCont.dir (h : StageCont F Ld V p) (ht : ContinuousAt τ p) (h0 : τ p = 0) :
    ContinuousAt (fun q => stDir (τ q) (F q) (Ld q) (V q)) p := contAt_mulVec (h.inv ht h0) h.qu

theorem StageCont.fb (h : StageCont F Ld V p) (ht : ContinuousAt τ p) (h0 : τ p = 0) :
    ContinuousAt (fun q => stFb (τ q) (F q) (Ld q) (V q)) p := contAt_mul (h.inv ht h0) h.qux

theorem StageCont.v (h : StageCont F Ld V p) (ht : ContinuousAt τ p) (h0 : τ p = 0) :
    ContinuousAt (fun q => (stV (τ q) (F q) (Ld q) (V q)).Vx) p ∧ ContinuousAt (fun q => (stV (τ q) (F q) (Ld q) (V q)).Vxx) p := by
  have hK : ContinuousAt (fun q => -(τ q • stFb (τ q) (F q) (Ld q) (V q))) p := (ht.smul (h.fb ht h0)).neg
  have hk : ContinuousAt (fun q => -(τ q • stDir (τ q) (F q) (Ld q) (V q))) p := (ht.smul (h.dir ht h0)).neg
  have hKt := contAt_transpose hK
  have hKq := contAt_mul hKt h.quu
  refine ⟨?_, ?_⟩
  · exact (((h.lx.add (contAt_mulVec (contAt_transpose h.fx) h.vx)).add (contAt_mulVec hKq hk)).add (contAt_mulVec hKt h.qu)).add
      (contAt_mulVec (contAt_transpose h.qux) hk)
  · have hW := (((h.lxx.add (contAt_mul (contAt_mul (contAt_transpose h.fx) h.vxx) h.fx)).add (contAt_mul hKq hK)).add (contAt_mul hKt h.qux)).add
      (contAt_mul (contAt_transpose h.qux) hK)
    exact (hW.add (contAt_transpose hW)).const_smul (1 / 2 : ℝ)

theorem stDir_zero (F : FDeriv n k ℝ) (Ld : LDeriv n k ℝ) (V : VDeriv n ℝ) : stDir 0 F Ld V = stQu F Ld V := by
  simp [stDir]

theorem stV_zero (F : FDeriv n k ℝ) (Ld : LDeriv n k ℝ) (V : VDeriv n ℝ) : (stV 0 F Ld V).Vx = Ld.Lx + F.Fxᵀ *ᵥ V.Vx := by
  simp [stV]

theorem stV_symm (τ : ℝ) (F : FDeriv n k ℝ) (Ld : LDeriv n k ℝ) (V : VDeriv n ℝ) : (stV τ F Ld V).Vxx.IsSymm := by
  simp only [stV, Matrix.IsSymm, transpose_smul, transpose_add, transpose_transpose]
  congr 1
  exact add_comm _ _

end

section
variable {n : ℕ} {md : ℝ → ℕ} {P : Callbacks n md} {t0 dt : ℝ} {x0 : Vec n ℝ} {N : ℕ}
  {dF : (j : ℕ) → Vec n ℝ → Vec (md (timeAt t0 dt j)) ℝ → FDeriv n (md (timeAt t0 dt j)) ℝ}
  {dL : (j : ℕ) → Vec n ℝ → Vec (md (timeAt t0 dt j)) ℝ → LDeriv n (md (timeAt t0 dt j)) ℝ} {dV : Vec n ℝ → VDeriv n ℝ}

variable (P t0 dt x0 N dF dL dV) in
/-- The value function of stage `N - i` for the regularisation `1/τ`. -/
noncomputable def largeV (τ : ℝ) (u : (j : ℕ) → Vec (md (timeAt t0 dt j)) ℝ) : ℕ → VDeriv n ℝ
  | 0 => dV (flow P t0 dt x0 u N)
  | i + 1 => stV τ (dF (N - (i + 1)) (flow P t0 dt x0 u (N - (i + 1))) (u (N - (i + 1))))
      (dL (N - (i + 1)) (flow P t0 dt x0 u (N - (i + 1))) (u (N - (i + 1)))) (largeV τ u i)

theorem SmoothOnGrid.stageCont (h : SmoothOnGrid P t0 dt N dF dL dV) {V : ℝ × ((j : ℕ) → Vec (md (timeAt t0 dt j)) ℝ) → VDeriv n ℝ}
    {q : ℝ × ((j : ℕ) → Vec (md (timeAt t0 dt j)) ℝ)} (h1 : ContinuousAt (fun q => (V q).Vx) q) (h2 : ContinuousAt (fun q => (V q).Vxx) q) {j : ℕ}
    (hj : j < N) :
    StageCont (fun q : ℝ × ((j : ℕ) → Vec (md (timeAt t0 dt j)) ℝ) => dF j (flow P t0 dt x0 q.2 j) (q.2 j))
      (fun q => dL j (flow P t0 dt x0 q.2 j) (q.2 j)) V q := by
  have hs : Continuous fun q : ℝ × ((j : ℕ) → Vec (md (timeAt t0 dt j)) ℝ) => (flow P t0 dt x0 q.2 j, q.2 j) :=
    (h.stage_cont hj.le).comp continuous_snd
  exact ⟨((h.contFx j hj).comp hs).continuousAt, ((h.contFu j hj).comp hs).continuousAt, ((h.contLx j hj).comp hs).continuousAt,
    ((h.contLu j hj).comp hs).continuousAt, ((h.contLxx j hj).comp hs).continuousAt, ((h.contLuu j hj).comp hs).continuousAt,
    ((h.contLxu j hj).comp hs).continuousAt, h1, h2⟩

theorem SmoothOnGrid.largeV_cont (h : SmoothOnGrid P t0 dt N dF dL dV) (u : (j : ℕ) → Vec (md (timeAt t0 dt j)) ℝ) {i : ℕ} (hi : i ≤ N) :
    ContinuousAt (fun q : ℝ × ((j : ℕ) → Vec (md (timeAt t0 dt j)) ℝ) => (largeV P t0 dt x0 N dF dL dV q.1 q.2 i).Vx) (0, u) ∧
    ContinuousAt (fun q : ℝ × ((j : ℕ) → Vec (md (timeAt t0 dt j)) ℝ) => (largeV P t0 dt x0 N dF dL dV q.1 q.2 i).Vxx) (0, u) := by
  induction i with
  | zero => exact ⟨(h.contVx.comp ((h.flow_cont le_rfl).comp continuous_snd)).continuousAt,
      (h.contVxx.comp ((h.flow_cont le_rfl).comp continuous_snd)).continuousAt⟩
  | succ i ih =>
    obtain ⟨h1, h2⟩ := ih (by omega)
    exact (h.stageCont h1 h2 (show N - (i + 1) < N by omega)).v continuousAt_fst rfl

theorem SmoothOnGrid.largeV_stage (h : SmoothOnGrid P t0 dt N dF dL dV) (u : (j : ℕ) → Vec (md (timeAt t0 dt j)) ℝ) {j : ℕ} (hj : j < N) :
    StageCont (fun q : ℝ × ((j : ℕ) → Vec (md (timeAt t0 dt j)) ℝ) => dF j (flow P t0 dt x0 q.2 j) (q.2 j))
      (fun q => dL j (flow P t0 dt x0 q.2 j) (q.2 j)) (fun q => largeV P t0 dt x0 N dF dL dV q.1 q.2 (N - (j + 1))) (0, u) :=
  h.stageCont (h.largeV_cont u (by omega)).1 (h.largeV_cont u (by omega)).2 hj

theorem largeV_zero (u : (j : ℕ) → Vec (md (timeAt t0 dt j)) ℝ) (i : ℕ) :
    (largeV P t0 dt x0 N dF dL dV 0 u i).Vx = backCo P t0 dt x0 N dF dL dV u i := by
  induction i with
  | zero => rfl
  | succ i ih => rw [largeV, stV_zero, ih, backCo]

variable (P t0 dt x0 N dF dL dV) in
/-- `-k/τ` of stage `j`. -/
noncomputable def largeDir (τ : ℝ) (u : (j : ℕ) → Vec (md (timeAt t0 dt j)) ℝ) (j : ℕ) : Vec (md (timeAt t0 dt j)) ℝ :=
  stDir τ (dF j (flow P t0 dt x0 u j) (u j)) (dL j (flow P t0 dt x0 u j) (u j)) (largeV P t0 dt x0 N dF dL dV τ u (N - (j + 1)))

variable (P t0 dt x0 N dF dL dV) in
/-- `-K/τ` of stage `j`. -/
noncomputable def largeFb (τ : ℝ) (u : (j : ℕ) → Vec (md (timeAt t0 dt j)) ℝ) (j : ℕ) : Mat (md (timeAt t0 dt j)) n ℝ :=
  stFb τ (dF j (flow P t0 dt x0 u j) (u j)) (dL j (flow P t0 dt x0 u j) (u j)) (largeV P t0 dt x0 N dF dL dV τ u (N - (j + 1)))

variable (P t0 dt x0 N dF dL dV) in
/-- `Qu` of stage `j`. -/
noncomputable def largeQu (τ : ℝ) (u : (j : ℕ) → Vec (md (timeAt t0 dt j)) ℝ) (j : ℕ) : Vec (md (timeAt t0 dt j)) ℝ :=
  stQu (dF j (flow P t0 dt x0 u j) (u j)) (dL j (flow P t0 dt x0 u j) (u j)) (largeV P t0 dt x0 N dF dL dV τ u (N - (j + 1)))

variable (P t0 dt x0 N dF dL dV) in
/-- `Quu` of stage `j`. -/
noncomputable def largeQuu (τ : ℝ) (u : (j : ℕ) → Vec (md (timeAt t0 dt j)) ℝ) (j : ℕ) : Mat (md (timeAt t0 dt j)) (md (timeAt t0 dt j)) ℝ :=
  stQuu (dF j (flow P t0 dt x0 u j) (u j)) (dL j (flow P t0 dt x0 u j) (u j)) (largeV P t0 dt x0 N dF dL dV τ u (N - (j + 1)))

theorem largeQu_zero (u : (j : ℕ) → Vec (md (timeAt t0 dt j)) ℝ) (j : ℕ) :
    largeQu P t0 dt x0 N dF dL dV 0 u j = inputGrad P t0 dt x0 N dF dL dV u j := by
  rw [largeQu, stQu, largeV_zero, inputGrad]

theorem largeDir_zero (u : (j : ℕ) → Vec (md (timeAt t0 dt j)) ℝ) (j : ℕ) :
    largeDir P t0 dt x0 N dF dL dV 0 u j = inputGrad P t0 dt x0 N dF dL dV u j := by
  rw [← largeQu_zero]
  exact stDir_zero _ _ _

variable (P t0 dt x0 N dF dL dV) in
/-- The expected decrease of the full step, divided by `τ`. -/
noncomputable def largeExp (τ : ℝ) (u : (j : ℕ) → Vec (md (timeAt t0 dt j)) ℝ) : ℝ :=
  ∑ j ∈ range N, (largeDir P t0 dt x0 N dF dL dV τ u j ⬝ᵥ largeQu P t0 dt x0 N dF dL dV τ u j -
    τ * (1 / 2 * (largeDir P t0 dt x0 N dF dL dV τ u j ⬝ᵥ largeQuu P t0 dt x0 N dF dL dV τ u j *ᵥ largeDir P t0 dt x0 N dF dL dV τ u j)))

theorem SmoothOnGrid.largeExp_cont (h : SmoothOnGrid P t0 dt N dF dL dV) (u : (j : ℕ) → Vec (md (timeAt t0 dt j)) ℝ) :
    ContinuousAt (fun q : ℝ × ((j : ℕ) → Vec (md (timeAt t0 dt j)) ℝ) => largeExp P t0 dt x0 N dF dL dV q.1 q.2) (0, u) := by
  refine tendsto_finsetSum _ fun j hj => ?_
  have hs := h.largeV_stage (x0 := x0) u (mem_range.1 hj)
  have hd := hs.dir continuousAt_fst rfl
  exact (contAt_dot hd hs.qu).sub (continuousAt_fst.mul (continuousAt_const.mul (contAt_dot hd (contAt_mulVec hs.quu hd))))

theorem largeExp_zero (u : (j : ℕ) → Vec (md (timeAt t0 dt j)) ℝ) :
    largeExp P t0 dt x0 N dF dL dV 0 u = ∑ j ∈ range N, inputGrad P t0 dt x0 N dF dL dV u j ⬝ᵥ inputGrad P t0 dt x0 N dF dL dV u j := by
  simp only [largeExp, largeDir_zero, largeQu_zero, zero_mul, sub_zero]

variable (P t0 dt x0 N dF dL dV) in
/-- The states of the full step. -/
noncomputable def largeX (τ : ℝ) (u : (j : ℕ) → Vec (md (timeAt t0 dt j)) ℝ) : ℕ → Vec n ℝ
  | 0 => x0
  | j + 1 => P.stateEq (timeAt t0 dt j) (largeX τ u j) (u j + τ • -(largeDir P t0 dt x0 N dF dL dV τ u j +
      largeFb P t0 dt x0 N dF dL dV τ u j *ᵥ (largeX τ u j - flow P t0 dt x0 u j)))

variable (P t0 dt x0 N dF dL dV) in
/-- The change of the inputs in the full step, divided by `τ`. -/
noncomputable def largeW (τ : ℝ) (u : (j : ℕ) → Vec (md (timeAt t0 dt j)) ℝ) (j : ℕ) : Vec (md (timeAt t0 dt j)) ℝ :=
  if j < N then -(largeDir P t0 dt x0 N dF dL dV τ u j +
    largeFb P t0 dt x0 N dF dL dV τ u j *ᵥ (largeX P t0 dt x0 N dF dL dV τ u j - flow P t0 dt x0 u j)) else 0

theorem largeX_zero (u : (j : ℕ) → Vec (md (timeAt t0 dt j)) ℝ) (j : ℕ) : largeX P t0 dt x0 N dF dL dV 0 u j = flow P t0 dt x0 u j := by
  induction j with
  | zero => rfl
  | succ j ih => rw [largeX, ih, zero_smul, add_zero, flow]

theorem largeX_eq (τ : ℝ) (u : (j : ℕ) → Vec (md (timeAt t0 dt j)) ℝ) {j : ℕ} (hj : j ≤ N) :
    largeX P t0 dt x0 N dF dL dV τ u j = flow P t0 dt x0 (u + τ • largeW P t0 dt x0 N dF dL dV τ u) j := by
  induction j with
  | zero => rfl
  | succ j ih =>
    rw [largeX, flow, ← ih (by omega), Pi.add_apply, Pi.smul_apply, largeW, if_pos (by omega)]

theorem SmoothOnGrid.largeX_cont (h : SmoothOnGrid P t0 dt N dF dL dV) (u : (j : ℕ) → Vec (md (timeAt t0 dt j)) ℝ) {j : ℕ} (hj : j ≤ N) :
    ContinuousAt (fun q : ℝ × ((j : ℕ) → Vec (md (timeAt t0 dt j)) ℝ) => largeX P t0 dt x0 N dF dL dV q.1 q.2 j) (0, u) := by
  induction j with
  | zero => exact continuousAt_const
  | succ j ih =>
    have ih := ih (by omega)
    have hs := h.largeV_stage (x0 := x0) u (show j < N by omega)
    have hf : ContinuousAt (fun q : ℝ × ((j : ℕ) → Vec (md (timeAt t0 dt j)) ℝ) => flow P t0 dt x0 q.2 j) (0, u) :=
      ((h.flow_cont (by omega)).comp continuous_snd).continuousAt
    have hu : ContinuousAt (fun q : ℝ × ((j : ℕ) → Vec (md (timeAt t0 dt j)) ℝ) => q.2 j) (0, u) :=
      ((continuous_apply j).comp continuous_snd).continuousAt
    have hw := hu.add (continuousAt_fst.smul ((hs.dir continuousAt_fst rfl).add (contAt_mulVec (hs.fb continuousAt_fst rfl) (ih.sub hf))).neg)
    exact ((h.contf (show j < N by omega)).continuousAt).comp (ih.prodMk hw)

theorem SmoothOnGrid.largeW_cont (h : SmoothOnGrid P t0 dt N dF dL dV) (u : (j : ℕ) → Vec (md (timeAt t0 dt j)) ℝ) :
    ContinuousAt (fun q : ℝ × ((j : ℕ) → Vec (md (timeAt t0 dt j)) ℝ) => largeW P t0 dt x0 N dF dL dV q.1 q.2) (0, u) := by
  refine continuousAt_pi.2 fun j => ?_
  by_cases hj : j < N
  · simp only [largeW, if_pos hj]
    have hs := h.largeV_stage (x0 := x0) u hj
    have hf : ContinuousAt (fun q : ℝ × ((j : ℕ) → Vec (md (timeAt t0 dt j)) ℝ) => flow P t0 dt x0 q.2 j) (0, u) :=
      ((h.flow_cont hj.le).comp continuous_snd).continuousAt
    exact ((hs.dir continuousAt_fst rfl).add (contAt_mulVec (hs.fb continuousAt_fst rfl) ((h.largeX_cont u hj.le).sub hf))).neg
  · simp only [largeW, if_neg hj]
    exact continuousAt_const

theorem largeW_zero (u : (j : ℕ) → Vec (md (timeAt t0 dt j)) ℝ) {j : ℕ} (hj : j < N) :
    largeW P t0 dt x0 N dF dL dV 0 u j = -inputGrad P t0 dt x0 N dF dL dV u j := by
  rw [largeW, if_pos hj, largeX_zero, sub_self, mulVec_zero, add_zero, largeDir_zero]

end

end Nmpc.DDP
