import Verif.Base.Scalar
import Mathlib.LinearAlgebra.Matrix.PosDef
import Mathlib.Algebra.Order.Star.Real

/-!
# Real linear algebra helpers
-/

namespace Nmpc

open Matrix

theorem posDef_iff {n : ℕ} {M : Mat n n ℝ} :
    M.PosDef ↔ M.IsSymm ∧ ∀ v : Vec n ℝ, v ≠ 0 → 0 < v ⬝ᵥ (M *ᵥ v) := by
  rw [Matrix.posDef_iff_dotProduct_mulVec]
  simp [Matrix.IsHermitian, Matrix.IsSymm]

theorem posSemidef_iff {n : ℕ} {M : Mat n n ℝ} :
    M.PosSemidef ↔ M.IsSymm ∧ ∀ v : Vec n ℝ, 0 ≤ v ⬝ᵥ (M *ᵥ v) := by
  rw [Matrix.posSemidef_iff_dotProduct_mulVec]
  simp [Matrix.IsHermitian, Matrix.IsSymm]

theorem symm_dot {n : ℕ} {M : Mat n n ℝ} (h : M.IsSymm) (v w : Vec n ℝ) :
    v ⬝ᵥ (M *ᵥ w) = w ⬝ᵥ (M *ᵥ v) := by
  rw [Matrix.dotProduct_mulVec, ← Matrix.mulVec_transpose, h.eq, dotProduct_comm]

theorem transpose_dot {m n : ℕ} (M : Mat m n ℝ) (v : Vec m ℝ) (w : Vec n ℝ) :
    w ⬝ᵥ (Mᵀ *ᵥ v) = v ⬝ᵥ (M *ᵥ w) := by
  rw [Matrix.mulVec_transpose, Matrix.dotProduct_mulVec, dotProduct_comm]

theorem dot_self_nonneg {n : ℕ} (v : Vec n ℝ) : 0 ≤ v ⬝ᵥ v :=
  Finset.sum_nonneg fun _ _ => mul_self_nonneg _

/-- Cauchy–Schwarz. -/
theorem dot_sq_le {n : ℕ} (v w : Vec n ℝ) : (v ⬝ᵥ w) ^ 2 ≤ (v ⬝ᵥ v) * (w ⬝ᵥ w) := by
  simp only [dotProduct, ← pow_two]
  exact Finset.sum_mul_sq_le_sq_mul_sq _ _ _

end Nmpc
