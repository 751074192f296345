import Verif.CGMRES.GmresProps
import Verif.Base.XQ
import Mathlib.LinearAlgebra.Matrix.PosDef
import Mathlib.Algebra.Order.Star.Real

/-!
# GMRES: exact dense solvers exist, counterexample to C49, concrete cases
-/

namespace Nmpc.Gmres

open Matrix

/-! ## Back substitution is exact -/

theorem backSub_exact {k : ℕ} (U : Mat k k ℝ) (g : Vec k ℝ) (hU : ∀ i j, j < i → U i j = 0) (hd : ∀ i, U i i ≠ 0) :
    U *ᵥ backSub U g = g := by
  have key := forDown_invariant (n := k) (s := g)
    (body := fun i r => if h : i < k then
      if eqb (r ⟨i, h⟩) (0 : ℝ) then r
      else
        let yi := r ⟨i, h⟩ / U ⟨i, h⟩ ⟨i, h⟩
        fun j => if (j : ℕ) = i then yi else if (j : ℕ) < i then r j - yi * U j ⟨i, h⟩ else r j
    else r)
    (fun m (r : Vec k ℝ) => (∀ j : Fin k, (j : ℕ) < m → r j = g j - ∑ i : Fin k, if m ≤ (i : ℕ) then U j i * r i else 0) ∧
      ∀ j : Fin k, m ≤ (j : ℕ) → ∑ i : Fin k, (if m ≤ (i : ℕ) then U j i * r i else 0) = g j)
    ⟨by intro j _
        rw [Finset.sum_eq_zero, sub_zero]
        intro i _; rw [if_neg (by omega)],
     by intro j hj; omega⟩
    (by
      rintro m r hm ⟨h1, h2⟩
      rw [dif_pos hm]
      -- both branches compute the same vector
      set i₀ : Fin k := ⟨m, hm⟩ with hi₀
      set r' : Vec k ℝ := fun j => if (j : ℕ) = m then r i₀ / U i₀ i₀
        else if (j : ℕ) < m then r j - r i₀ / U i₀ i₀ * U j i₀ else r j with hr'
      have e : (if eqb (r i₀) (0 : ℝ) = true then r else
          let yi := r i₀ / U i₀ i₀
          fun j => if (j : ℕ) = m then yi else if (j : ℕ) < m then r j - yi * U j i₀ else r j) = r' := by
        split
        · rename_i h0
          have h0 : r i₀ = 0 := by simpa using h0
          funext j
          rw [hr']; dsimp only
          split
          · rename_i hj
            have : j = i₀ := Fin.ext hj
            rw [this, h0, zero_div]
          · split
            · rw [h0]; ring
            · rfl
        · rfl
      rw [e]
      have hsplit : ∀ j : Fin k, (∑ i : Fin k, if m ≤ (i : ℕ) then U j i * r' i else 0) =
          U j i₀ * r' i₀ + ∑ i : Fin k, if m + 1 ≤ (i : ℕ) then U j i * r i else 0 := by
        intro j
        have : ∀ i : Fin k, (if m ≤ (i : ℕ) then U j i * r' i else 0) =
            (if i = i₀ then U j i₀ * r' i₀ else 0) + if m + 1 ≤ (i : ℕ) then U j i * r i else 0 := by
          intro i
          by_cases hi : i = i₀
          · have hv : (i : ℕ) = m := by rw [hi, hi₀]
            rw [if_pos (by omega), if_pos hi, if_neg (by omega), hi, add_zero]
          · have hne : (i : ℕ) ≠ m := fun h => hi (Fin.ext h)
            rw [if_neg hi, zero_add]
            by_cases hmi : m ≤ (i : ℕ)
            · rw [if_pos hmi, if_pos (by omega), hr']
              simp only [hne, if_false, show ¬ (i : ℕ) < m by omega]
            · rw [if_neg hmi, if_neg (by omega)]
        rw [Finset.sum_congr rfl fun i _ => this i, Finset.sum_add_distrib, Finset.sum_ite_eq' Finset.univ i₀]
        simp
      have hri : r' i₀ = r i₀ / U i₀ i₀ := by rw [hr', hi₀]; simp
      have hrm := h1 i₀ (by rw [hi₀]; exact Nat.lt_succ_self m)
      constructor
      · intro j hj
        rw [hsplit, hri]
        have : r' j = r j - r i₀ / U i₀ i₀ * U j i₀ := by
          rw [hr']; simp only [show (j : ℕ) ≠ m by omega, if_false, hj, if_true]
        rw [this, h1 j (by omega)]; ring
      · intro j hj
        rw [hsplit]
        by_cases hjm : j = i₀
        · rw [hjm, hri, mul_div_cancel₀ _ (hd i₀), hrm]; ring
        · have : (j : ℕ) ≠ m := fun h => hjm (Fin.ext h)
          rw [hU j i₀ (by rw [Fin.lt_def, hi₀]; change m < (j : ℕ); omega), zero_mul, zero_add]
          exact h2 j (by omega))
  funext j
  have h := key.2 j (Nat.zero_le _)
  simp only [Nat.zero_le, if_true] at h
  exact h

/-- Dense solvers in exact arithmetic: back substitution and normal equations. -/
noncomputable def realDense : Dense ℝ where
  tri := backSub
  qr M g := (Mᵀ * M)⁻¹ *ᵥ (Mᵀ *ᵥ g)

/-- The exactness assumption of C45 - C48 is satisfiable. -/
theorem realDense_exact : realDense.Exact where
  tri U g h1 h2 := backSub_exact U g h1 h2
  qr := by
    intro k M g hM y
    have hdet : IsUnit (Mᵀ * M).det := by
      rw [← Matrix.isUnit_iff_isUnit_det, ← Matrix.mulVec_injective_iff_isUnit]
      intro u v huv
      have h0 : (Mᵀ * M) *ᵥ (u - v) = 0 := by rw [mulVec_sub]; exact sub_eq_zero.mpr huv
      have h1 : (M *ᵥ (u - v)) ⬝ᵥ (M *ᵥ (u - v)) = 0 := by
        rw [← mulVec_mulVec] at h0
        have := congrArg (fun w => (u - v) ⬝ᵥ w) h0
        simp only [dotProduct_zero] at this
        rw [dotProduct_mulVec, vecMul_transpose] at this
        exact this
      exact sub_eq_zero.mp (hM _ (dot_self_eq_zero'.mp h1))
    set z := realDense.qr M g with hz
    have hn : Mᵀ *ᵥ (g - M *ᵥ z) = 0 := by
      rw [mulVec_sub, mulVec_mulVec, hz]
      change _ - (Mᵀ * M) *ᵥ ((Mᵀ * M)⁻¹ *ᵥ (Mᵀ *ᵥ g)) = 0
      rw [mulVec_mulVec, Matrix.mul_nonsing_inv _ hdet, one_mulVec, sub_self]
    have hsplit : g - M *ᵥ y = (g - M *ᵥ z) + M *ᵥ (z - y) := by rw [mulVec_sub]; abel
    have hcross : (g - M *ᵥ z) ⬝ᵥ (M *ᵥ (z - y)) = 0 := by
      rw [dotProduct_mulVec, ← mulVec_transpose, hn, zero_dotProduct]
    rw [hsplit, add_dotProduct, dotProduct_add, dotProduct_add, hcross, dotProduct_comm (M *ᵥ (z - y)) (g - M *ᵥ z),
      hcross]
    have := dot_self_nonneg' (M *ᵥ (z - y))
    linarith

/-! ## C49 is false -/

/-- The default settings with back substitution. -/
def xqDense : Dense XQ where
  tri := backSub
  qr _ g := fun i => g i.castSucc

/-- Default parameters (Gmres.h 45-46, 195-196). -/
def defaultConfig {α : Type} [FOps α] : Config α :=
  { makeTriangular := true, applyReorth := true, kMax := 100, eps := lit (1 / 10 ^ 10) }

/-- `[[0, 1], [0, 0]]`. -/
def singA : Mat 2 2 XQ := fun i j => if i = 0 ∧ j = 1 then .fin 1 else .fin 0
/-- `(1, 0)`. -/
def singB : Vec 2 XQ := fun i => if i = 0 then .fin 1 else .fin 0

/-- C49 is false: for the finite singular but consistent system `x₁ = 1, 0 = 0` (solution `(0, 1)`), initial guess 0 and
the default settings, the returned `x` is NaN. -/
theorem C49_fails : ((solveMat xqDense defaultConfig singA singB fun _ => .fin 0).map fun r => (List.ofFn r.x, r.err)) =
      .ok ([.nan, .nan], [.fin 1, .nan]) := by
  decide +kernel

/-! ## Concrete cases -/

/-- A permutation matrix (invertible, and the first iteration makes no progress). -/
def permA : Mat 2 2 ℝ := !![0, 1; 1, 0]

theorem permA_det : IsUnit permA.det := by
  rw [permA, Matrix.det_fin_two_of]; norm_num

/-- Default modes with tolerance 0. -/
noncomputable def exCfg (tri : Bool) : Config ℝ := { makeTriangular := tri, applyReorth := true, kMax := 2, eps := 0 }

/-- C45, C46, C47, C48, C49: in both modes all hypotheses hold for the permutation matrix and `b = (1, 0)`, and the
conclusion determines the result `(0, 1)`. -/
example (tri : Bool) : ∃ r, solveMat realDense (exCfg tri) permA ![1, 0] 0 = .ok r ∧ r.x = ![0, 1] ∧
    NoBreakdown (exCfg tri) r ∧ r.err.getLast? = some 0 ∧ r.err.Pairwise (· ≥ ·) ∧
    ∀ z, z - 0 ∈ krylov permA (![1, 0] - permA *ᵥ 0) r.k → norm2 (![1, 0] - permA *ᵥ r.x) ≤ norm2 (![1, 0] - permA *ᵥ z) := by
  obtain ⟨r, hr⟩ := (C46_total realDense (exCfg tri) (permA *ᵥ ·) ![1, 0] 0).2 (by simp [exCfg])
  have hr' : solveMat realDense (exCfg tri) permA ![1, 0] 0 = .ok r := hr
  have hb := C49_partial realDense (exCfg tri) _ _ realDense_exact permA permA_det (by simp [exCfg]) hr'
  have hx := C48_exact realDense (exCfg tri) _ _ realDense_exact permA permA_det rfl (by simp [exCfg]) hr'
  have hl := (C45_residual realDense (exCfg tri) _ _ realDense_exact permA hr' hb).2
  rw [hx, sub_self] at hl
  refine ⟨r, hr', ?_, hb, ?_, C46_monotone realDense (exCfg tri) _ _ _ realDense_exact hr hb,
    (C47_krylov realDense (exCfg tri) _ _ realDense_exact permA hr' hb).2⟩
  · have h0 := congrFun hx 0
    have h1 := congrFun hx 1
    simp [permA, mulVec, dotProduct, Fin.sum_univ_two] at h0 h1
    funext i; fin_cases i <;> simp [h0, h1]
  · rw [hl]; simp [norm2]

/-- C46: a nonlinear operator (componentwise square). -/
example : ∃ r, solve realDense (exCfg true) (fun v => fun i => v i ^ 2) ![1, 0] ![2, 3] = .ok r ∧
    r.err.length ≤ 3 ∧ r.x - ![2, 3] ∈ Submodule.span ℝ {v | v ∈ r.basis.take r.k} := by
  obtain ⟨r, hr⟩ := (C46_total realDense (exCfg true) (fun v => fun i => v i ^ 2) ![1, 0] ![2, 3]).2 (by simp [exCfg])
  have h := C46_shape _ _ _ _ _ hr
  refine ⟨r, hr, ?_, C46_span _ _ _ _ _ hr⟩
  have := h.2.2.2.1
  omega

/-- C46: a negative limit. -/
example : solve realDense { exCfg true with kMax := -1 } (permA *ᵥ ·) ![1, 0] 0 = .ub :=
  (C46_total _ _ _ _ _).1 (by simp)

end Nmpc.Gmres
