import Verif.Base.Scalar
import Mathlib.LinearAlgebra.Matrix.PosDef

/-!
# External factorisations

Eigen's `LLT` is not part of the repository.  It is a parameter of the model: a factorisation is
identified with the matrix that was factorised.
-/

namespace Nmpc

/-- Eigen's `LLT` decomposition as used by the code: `ok M` is `LLT(M).info() != NumericalIssue`,
`solve M b` is `LLT(M).solve(b)`. -/
structure LLT (α : Type) where
  ok : {n : ℕ} → Mat n n α → Bool
  solve : {n : ℕ} → Mat n n α → Vec n α → Vec n α

/-- `llt.solve(B)` for a matrix right-hand side solves column by column. -/
def LLT.solveMat {α : Type} (L : LLT α) {n m : ℕ} (M : Mat n n α) (B : Mat n m α) : Mat n m α :=
  fun i j => L.solve M (fun r => B r j) i

/-- Contract for a Cholesky factorisation in exact arithmetic, on symmetric matrices only
(Eigen reads only the lower triangle): it succeeds exactly on positive definite matrices and then
solves the linear system exactly. -/
structure LLT.Exact (L : LLT ℝ) : Prop where
  ok_iff : ∀ {n : ℕ} (M : Mat n n ℝ), M.IsSymm → (L.ok M = true ↔ M.PosDef)
  solve_eq : ∀ {n : ℕ} (M : Mat n n ℝ) (b : Vec n ℝ), M.PosDef →
    Matrix.mulVec M (L.solve M b) = b

open scoped Classical in
/-- An implementation of the contract (used to show that the contract is satisfiable). -/
noncomputable def exactLLT : LLT ℝ where
  ok M := decide M.PosDef
  solve M b := Matrix.mulVec M⁻¹ b

theorem exactLLT_exact : exactLLT.Exact where
  ok_iff M _ := by simp [exactLLT]
  solve_eq M b h := by
    simp only [exactLLT, Matrix.mulVec_mulVec]
    rw [Matrix.mul_nonsing_inv _ ((Matrix.isUnit_iff_isUnit_det M).1 h.isUnit), Matrix.one_mulVec]

end Nmpc
