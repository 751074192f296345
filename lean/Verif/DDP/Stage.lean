import Verif.DDP.Generic
import Verif.Base.LinAlg

/-!
# Algebra of one stage of the backward pass (exact arithmetic)
-/

namespace Nmpc.DDP

set_option linter.unusedSectionVars false

open Matrix

section Algebra
variable {a b c d : ℕ}

theorem conj_dot (P : Mat c a ℝ) (M : Mat c d ℝ) (R : Mat d b ℝ) (x : Vec a ℝ) (y : Vec b ℝ) :
    x ⬝ᵥ (Pᵀ * M * R) *ᵥ y = (P *ᵥ x) ⬝ᵥ M *ᵥ (R *ᵥ y) := by
  rw [← mulVec_mulVec, ← mulVec_mulVec, dotProduct_mulVec, vecMul_transpose]

theorem tmul_dot (P : Mat c a ℝ) (v : Vec c ℝ) (x : Vec a ℝ) : (Pᵀ *ᵥ v) ⬝ᵥ x = v ⬝ᵥ P *ᵥ x := by
  rw [mulVec_transpose, dotProduct_mulVec]

theorem tmul_dot' (P : Mat c a ℝ) (v : Vec c ℝ) (x : Vec a ℝ) : x ⬝ᵥ (Pᵀ *ᵥ v) = v ⬝ᵥ P *ᵥ x := by
  rw [dotProduct_comm, tmul_dot]

end Algebra

variable {n k : ℕ} {cfg : Config ℝ} {lambda : ℝ}

/-- Value of the quadratic model `V` at a state deviation. -/
noncomputable def VDeriv.val (V : VDeriv n ℝ) (dx : Vec n ℝ) : ℝ := V.Vx ⬝ᵥ dx + 1 / 2 * (dx ⬝ᵥ V.Vxx *ᵥ dx)

/-- Value of the quadratic model `L` at a deviation. -/
noncomputable def LDeriv.val (L : LDeriv n k ℝ) (dx : Vec n ℝ) (du : Vec k ℝ) : ℝ :=
  L.Lx ⬝ᵥ dx + L.Lu ⬝ᵥ du + 1 / 2 * (dx ⬝ᵥ L.Lxx *ᵥ dx) + dx ⬝ᵥ L.Lxu *ᵥ du + 1 / 2 * (du ⬝ᵥ L.Luu *ᵥ du)

/-- Value of the quadratic model of the state-action value. -/
noncomputable def QData.val (Q : QData n k ℝ) (dx : Vec n ℝ) (du : Vec k ℝ) : ℝ :=
  Q.Qx ⬝ᵥ dx + Q.Qu ⬝ᵥ du + 1 / 2 * (dx ⬝ᵥ Q.Qxx *ᵥ dx) + du ⬝ᵥ Q.Qux *ᵥ dx + 1 / 2 * (du ⬝ᵥ Q.Quu *ᵥ du)

/-- `Q` is the sum of the stage cost and the next value at the linearised next state. -/
theorem calcQ_val (F : FDeriv n k ℝ) (L : LDeriv n k ℝ) (V : VDeriv n ℝ) (hV : V.Vxx.IsSymm)
    (dx : Vec n ℝ) (du : Vec k ℝ) :
    (calcQ cfg lambda F L V).val dx du = L.val dx du + V.val (F.Fx *ᵥ dx + F.Fu *ᵥ du) := by
  simp only [QData.val, calcQ, LDeriv.val, VDeriv.val, matMul_real, mulVec_real, add_mulVec, dotProduct_add,
    add_dotProduct, conj_dot, tmul_dot, tmul_dot', mulVec_add]
  rw [symm_dot hV (F.Fx *ᵥ dx) (F.Fu *ᵥ du)]
  ring

theorem updateV_symm (Q : QData n k ℝ) (kv : Vec k ℝ) (K : Mat k n ℝ) : (updateV Q kv K).Vxx.IsSymm := by
  simp only [updateV, smulm_real, Matrix.IsSymm, transpose_smul, transpose_add, transpose_transpose]
  rw [add_comm]

theorem quad_symmetrise (M : Mat n n ℝ) (x : Vec n ℝ) :
    x ⬝ᵥ ((lit (1 / 2) : ℝ) • (M + Mᵀ)) *ᵥ x = x ⬝ᵥ M *ᵥ x := by
  rw [smul_mulVec, dotProduct_smul, add_mulVec, dotProduct_add, tmul_dot', lit_real, smul_eq_mul]
  push_cast; ring

/-- Completing the square: the state-action value at an arbitrary input. -/
theorem updateV_val (Q : QData n k ℝ) (hQ : Q.Quu.IsSymm) (kv : Vec k ℝ) (K : Mat k n ℝ) (dx : Vec n ℝ) (e : Vec k ℝ) :
    Q.val dx (kv + K *ᵥ dx + e) =
      kv ⬝ᵥ Q.Qu + 1 / 2 * (kv ⬝ᵥ Q.Quu *ᵥ kv) + (updateV Q kv K).val dx +
      (e ⬝ᵥ (Q.Qu + Q.Quu *ᵥ kv + (Q.Qux *ᵥ dx + Q.Quu *ᵥ (K *ᵥ dx))) + 1 / 2 * (e ⬝ᵥ Q.Quu *ᵥ e)) := by
  have h1 : (updateV Q kv K).val dx = Q.Qx ⬝ᵥ dx + kv ⬝ᵥ Q.Quu *ᵥ (K *ᵥ dx) + Q.Qu ⬝ᵥ K *ᵥ dx + kv ⬝ᵥ Q.Qux *ᵥ dx +
      1 / 2 * (dx ⬝ᵥ Q.Qxx *ᵥ dx + (K *ᵥ dx) ⬝ᵥ Q.Quu *ᵥ (K *ᵥ dx) + 2 * ((K *ᵥ dx) ⬝ᵥ Q.Qux *ᵥ dx)) := by
    simp only [VDeriv.val, updateV, smulm_real, quad_symmetrise]
    simp only [matMul_real, mulVec_real, add_mulVec, dotProduct_add, add_dotProduct, tmul_dot, ← mulVec_mulVec, tmul_dot']
    rw [dotProduct_comm (Q.Quu *ᵥ kv) (K *ᵥ dx), symm_dot hQ (K *ᵥ dx) kv,
      dotProduct_comm (Q.Quu *ᵥ (K *ᵥ dx)) (K *ᵥ dx), dotProduct_comm (Q.Qux *ᵥ dx) (K *ᵥ dx)]
    ring
  rw [h1]
  simp only [QData.val, mulVec_add, dotProduct_add, add_dotProduct]
  rw [symm_dot hQ (K *ᵥ dx) kv, symm_dot hQ (K *ᵥ dx) e, symm_dot hQ kv e, dotProduct_comm Q.Qu kv,
    dotProduct_comm Q.Qu e]
  ring

theorem calcQ_Quu_symm {F : FDeriv n k ℝ} {L : LDeriv n k ℝ} {V : VDeriv n ℝ} (hV : V.Vxx.IsSymm)
    (hL : L.Luu.IsSymm) : (calcQ cfg lambda F L V).Quu.IsSymm := by
  simp only [calcQ, matMul_real, Matrix.IsSymm, transpose_add, transpose_mul, transpose_transpose, hV.eq, hL.eq,
    Matrix.mul_assoc]

end Nmpc.DDP
