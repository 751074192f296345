import Verif.CGMRES.ResidOrder
import Verif.CGMRES.Tracking

/-!
# The simulation against the continuous-time optimality conditions (C148), in exact arithmetic
-/

namespace Nmpc.Cgmres

open Set OdeOrder

variable {n m : ℕ}

/-- `y` and `lam` are the state and the costate of the continuous-time conditions on the horizon of duration `D` that starts at time `t`,
for the stage inputs `U`: the state equation holds on every stage, the costate equation holds along `y`, and the costate ends at the
gradient of the terminal cost. -/
structure Extremal (P : Problem n m ℝ) {N : ℕ} (t D : ℝ) (U : Fin N → Vec m ℝ) (y lam : ℝ → Vec n ℝ) : Prop where
  state : Held P.stateEq N t (D / N) (colAt U) y
  costate : CoHeld P.costateEq N t (D / N) (colAt U) y lam
  terminal : lam (t + D) = P.dphidx (t + D) (y (t + D))

/-- The entries of a column are bounded by the Euclidean norm of the whole list. -/
theorem norm_col_le {N : ℕ} (V : Fin N → Vec m ℝ) (i : Fin N) : ‖V i‖ ≤ Gmres.norm2 (flatten V) := by
  refine (pi_norm_le_iff_of_nonneg (norm2_nonneg _)).2 fun j => ?_
  have h := PiLp.norm_apply_le (WithLp.toLp 2 (flatten V)) (finProdFinEquiv (i, j))
  have e : flatten V (finProdFinEquiv (i, j)) = V i j := by
    unfold flatten
    have h1 := finProdFinEquiv.symm_apply_apply (i, j)
    have h2 : (finProdFinEquiv (i, j)).divNat = i := congrArg Prod.fst h1
    have h3 : (finProdFinEquiv (i, j)).modNat = j := congrArg Prod.snd h1
    rw [h2, h3]
  rw [← e]
  exact h

end Nmpc.Cgmres
