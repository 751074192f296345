import Verif.DDP.NewtonRegion
import Mathlib.Analysis.Asymptotics.Defs
import Mathlib.Analysis.Asymptotics.Lemmas

/-!
# Order estimates for vectors, matrices and deviations that depend on a parameter
-/

namespace Nmpc.DDP

set_option linter.unusedSectionVars false

open Matrix Finset Asymptotics Filter

variable {ι : Type} {l : Filter ι} {k k' a b c : ℕ} {f g h : ι → ℝ}

/-- Every entry of the vector is `O(g)`. -/
def VO (l : Filter ι) (v : ι → Vec k ℝ) (g : ι → ℝ) : Prop := ∀ i, (fun p => v p i) =O[l] g

/-- Every entry of the matrix is `O(g)`. -/
def MO (l : Filter ι) (A : ι → Mat a b ℝ) (g : ι → ℝ) : Prop := ∀ i j, (fun p => A p i j) =O[l] g

section Calculus
variable {u v : ι → Vec k ℝ} {A A' : ι → Mat a b ℝ} {B : ι → Mat b c ℝ}

theorem VO.trans (hv : VO l v f) (h : f =O[l] g) : VO l v g := fun i => (hv i).trans h
theorem MO.trans (hA : MO l A f) (h : f =O[l] g) : MO l A g := fun i j => (hA i j).trans h

theorem VO.add (hu : VO l u g) (hv : VO l v g) : VO l (fun p => u p + v p) g := fun i => (hu i).add (hv i)
theorem VO.sub (hu : VO l u g) (hv : VO l v g) : VO l (fun p => u p - v p) g := fun i => (hu i).sub (hv i)
theorem VO.neg (hu : VO l u g) : VO l (fun p => -u p) g := fun i => (hu i).neg_left
theorem VO.zero : VO l (fun _ => (0 : Vec k ℝ)) g := fun _ => isBigO_zero _ _
theorem VO.const (w : Vec k ℝ) : VO l (fun _ => w) fun _ => 1 := fun _ => isBigO_const_const _ one_ne_zero _
theorem MO.add (hA : MO l A g) (hB : MO l A' g) : MO l (fun p => A p + A' p) g := fun i j => (hA i j).add (hB i j)
theorem MO.const (M : Mat a b ℝ) : MO l (fun _ => M) fun _ => 1 := fun _ _ => isBigO_const_const _ one_ne_zero _
theorem MO.transpose (hA : MO l A g) : MO l (fun p => (A p)ᵀ) g := fun i j => hA j i

theorem VO.congr (hu : VO l u g) (h : ∀ᶠ p in l, u p = v p) : VO l v g := fun i =>
  (hu i).congr' (h.mono fun p hp => by show u p i = v p i; rw [hp]) (EventuallyEq.refl _ _)

theorem VO.dot (hu : VO l u f) (hv : VO l v g) : (fun p => u p ⬝ᵥ v p) =O[l] fun p => f p * g p := by
  simp only [dotProduct]
  exact IsBigO.fun_sum fun i _ => (hu i).mul (hv i)

theorem MO.mulVec {v : ι → Vec b ℝ} (hA : MO l A f) (hv : VO l v g) : VO l (fun p => A p *ᵥ v p) fun p => f p * g p := fun i => by
  simp only [Matrix.mulVec, dotProduct]
  exact IsBigO.fun_sum fun j _ => (hA i j).mul (hv j)

/-- A bounded matrix. -/
theorem MO.mulVec1 {v : ι → Vec b ℝ} (hA : MO l A fun _ => 1) (hv : VO l v g) : VO l (fun p => A p *ᵥ v p) g := by
  have := hA.mulVec hv
  simpa only [one_mul] using this

theorem MO.mul (hA : MO l A fun _ => 1) (hB : MO l B fun _ => 1) : MO l (fun p => A p * B p) fun _ => 1 := fun i j => by
  simp only [Matrix.mul_apply]
  refine IsBigO.fun_sum fun q _ => ?_
  have := (hA i q).mul (hB q j)
  simpa only [one_mul] using this

theorem MO.smul (hA : MO l A g) (t : ℝ) : MO l (fun p => t • A p) g := fun i j => by
  simpa using (hA i j).const_mul_left t

end Calculus

theorem abs_le_sqrt_dot (v : Vec k ℝ) (i : Fin k) : |v i| ≤ √(v ⬝ᵥ v) := by
  refine Real.abs_le_sqrt ?_
  rw [pow_two]
  exact single_le_sum (f := fun i => v i * v i) (fun j _ => mul_self_nonneg (v j)) (mem_univ i)

theorem VO.of_sqrt {v : ι → Vec k ℝ} (h : (fun p => √(v p ⬝ᵥ v p)) =O[l] g) : VO l v g := fun i => by
  refine IsBigO.trans (IsBigO.of_bound 1 (Eventually.of_forall fun p => ?_)) h
  rw [one_mul, Real.norm_of_nonneg (Real.sqrt_nonneg _)]
  exact abs_le_sqrt_dot _ i

/-- Square roots of sums of squares. -/
theorem sqrt_bigO {q : ι → ℝ} (h : q =O[l] fun p => g p ^ 2) : (fun p => √(q p)) =O[l] g := by
  obtain ⟨C, hC0, hC⟩ := h.exists_pos
  refine IsBigO.of_bound √C (hC.bound.mono fun p hp => ?_)
  rw [Real.norm_of_nonneg (Real.sqrt_nonneg _), Real.norm_eq_abs, ← Real.sqrt_sq_eq_abs, ← Real.sqrt_mul hC0.le]
  refine Real.sqrt_le_sqrt ((le_abs_self _).trans ?_)
  rwa [Real.norm_eq_abs, Real.norm_of_nonneg (sq_nonneg _)] at hp

section Dev
variable {n : ℕ} {m : ℕ → ℕ} {N : ℕ}

/-- All states and inputs of the deviation are `O(g)`. -/
structure DO (l : Filter ι) (N : ℕ) (e : ι → Dev n m) (g : ι → ℝ) : Prop where
  x : ∀ j ≤ N, VO l (fun p => (e p).x j) g
  u : ∀ j < N, VO l (fun p => (e p).u j) g

theorem DO.sqrt {e : ι → Dev n m} (h : DO l N e g) : (fun p => √(devSq N (e p))) =O[l] g := by
  refine sqrt_bigO ?_
  unfold devSq
  simp only [pow_two]
  refine IsBigO.add (IsBigO.fun_sum fun j hj => IsBigO.add ?_ ?_) ?_
  · exact (h.x j (mem_range.1 hj).le).dot (h.x j (mem_range.1 hj).le)
  · exact (h.u j (mem_range.1 hj)).dot (h.u j (mem_range.1 hj))
  · exact (h.x N le_rfl).dot (h.x N le_rfl)

theorem dev_x_le (e : Dev n m) {j : ℕ} (hj : j ≤ N) : √(e.x j ⬝ᵥ e.x j) ≤ √(devSq N e) := by
  refine Real.sqrt_le_sqrt ?_
  rcases hj.lt_or_eq with h | rfl
  · have := devSq_stage e h
    have := dot_self_nonneg' (e.u j)
    linarith
  · exact devSq_term e

theorem dev_u_le (e : Dev n m) {j : ℕ} (hj : j < N) : √(e.u j ⬝ᵥ e.u j) ≤ √(devSq N e) := by
  refine Real.sqrt_le_sqrt ?_
  have := devSq_stage e hj
  have := dot_self_nonneg' (e.x j)
  linarith

theorem DO.of_devSq (e : ι → Dev n m) : DO l N e fun p => √(devSq N (e p)) where
  x j hj := .of_sqrt (IsBigO.of_bound 1 (Eventually.of_forall fun p => by
    rw [one_mul, Real.norm_of_nonneg (Real.sqrt_nonneg _), Real.norm_of_nonneg (Real.sqrt_nonneg _)]
    exact dev_x_le (e p) hj))
  u j hj := .of_sqrt (IsBigO.of_bound 1 (Eventually.of_forall fun p => by
    rw [one_mul, Real.norm_of_nonneg (Real.sqrt_nonneg _), Real.norm_of_nonneg (Real.sqrt_nonneg _)]
    exact dev_u_le (e p) hj))

theorem DO.trans {e : ι → Dev n m} (he : DO l N e f) (h : f =O[l] g) : DO l N e g :=
  ⟨fun j hj => (he.x j hj).trans h, fun j hj => (he.u j hj).trans h⟩

theorem DO.add {e e' : ι → Dev n m} (he : DO l N e g) (he' : DO l N e' g) : DO l N (fun p => (e p).add (e' p)) g :=
  ⟨fun j hj => (he.x j hj).add (he'.x j hj), fun j hj => (he.u j hj).add (he'.u j hj)⟩

theorem DO.neg {e : ι → Dev n m} (he : DO l N e g) : DO l N (fun p => (e p).neg) g :=
  ⟨fun j hj => (he.x j hj).neg, fun j hj => (he.u j hj).neg⟩

end Dev

/-- Cauchy-Schwarz. -/
theorem dot_le_sqrt (v w : Vec k ℝ) : |v ⬝ᵥ w| ≤ √(v ⬝ᵥ v) * √(w ⬝ᵥ w) := by
  rw [← Real.sqrt_mul (dot_self_nonneg' v)]
  refine Real.abs_le_sqrt ?_
  have := sum_mul_sq_le_sq_mul_sq univ v w
  simpa [dotProduct, pow_two] using this

end Nmpc.DDP
