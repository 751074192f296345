import Verif.CGMRES.Examples

/-!
# C/GMRES: further concrete cases
-/

namespace Nmpc.Gmres

open Matrix

/-- C45, C46, C47 and C48 for the permutation matrix in the least-squares mode, with one iteration fewer than unknowns and with a
tolerance. -/
example : ∃ r, solveMat realDense { exCfg false with kMax := 1 } permA ![1, 0] 0 = .ok r ∧
    r.err.getLast? = some (norm2 (![1, 0] - permA *ᵥ r.x)) ∧ r.basis.Pairwise (fun v w => v ⬝ᵥ w = 0) ∧
    ∀ v ∈ r.basis, norm2 v = 1 ∨ v = 0 := by
  obtain ⟨r, hr⟩ := (C46_total realDense { exCfg false with kMax := 1 } (permA *ᵥ ·) ![1, 0] 0).2 (by simp)
  have hr' : solveMat realDense { exCfg false with kMax := 1 } permA ![1, 0] 0 = .ok r := hr
  have h6 := C46_orthonormal _ _ _ _ _ hr
  exact ⟨r, hr', C45_lsq _ _ _ _ permA rfl hr', h6.1, h6.2⟩

example (b x : Vec 2 ℝ) : ∃ r, solveMat realDense { exCfg true with eps := 1 / 10 } permA b x = .ok r ∧
    norm2 (b - permA *ᵥ r.x) ≤ 1 / 10 * norm2 b ∧
    ∀ z, z - x ∈ Submodule.span ℝ {v | v ∈ r.basis.take r.k} → norm2 (b - permA *ᵥ r.x) ≤ norm2 (b - permA *ᵥ z) := by
  obtain ⟨r, hr⟩ := (C46_total realDense { exCfg true with eps := 1 / 10 } (permA *ᵥ ·) b x).2 (by simp [exCfg])
  have hr' : solveMat realDense { exCfg true with eps := 1 / 10 } permA b x = .ok r := hr
  have hb := C49_partial realDense { exCfg true with eps := 1 / 10 } b x realDense_exact permA permA_det (by norm_num) hr'
  exact ⟨r, hr', C48_solves realDense _ b x realDense_exact permA permA_det (by norm_num) (by simp [exCfg]) hr',
    fun z hz => C47_minimal realDense _ b x realDense_exact permA hr' hb hz⟩

end Nmpc.Gmres

namespace Nmpc.Cgmres

open Finset Matrix

/-- C44: steps of length zero, constant rates, and the rotation `x' = (x₁, -x₀)`. -/
example (t : ℝ) (x : Vec 2 ℝ) (u : Vec 1 ℝ) : rk4 (fun s x _ => ![s * x 1, Real.sin (x 0)]) t x u 0 = x := (C44_zero _ t x u).2

example (t dt : ℝ) (u : Vec 1 ℝ) : euler (fun _ _ _ => ![2]) t ![1 + 2 * t] u dt = ![1 + 2 * (t + dt)] :=
  C44_euler_constant ![2] t dt ![1 + 2 * t] u (fun s => ![1 + 2 * s])
    (fun s => by
      rw [hasDerivAt_pi]
      intro i
      fin_cases i
      have := ((hasDerivAt_id s).const_mul 2).const_add 1
      simpa using this) rfl

example (t : ℝ) (x : Vec 2 ℝ) (u : Vec 1 ℝ) (dt : ℝ) :
    rk4 (fun _ x (_ : Vec 1 ℝ) => !![0, 1; -1, 0] *ᵥ x) t x u dt =
      ((1 - dt ^ 2 / 2 + dt ^ 4 / 24) • (1 : Mat 2 2 ℝ) + (dt - dt ^ 3 / 6) • !![0, 1; -1, 0]) *ᵥ x := by
  have h := (C44_linear !![0, 1; -1, 0] (0 : Mat 2 1 ℝ) 0 t x u dt).2
  simp only [zero_mulVec, add_zero, mulVec_zero] at h
  rw [h]
  congr 1
  have h2 : (!![0, 1; -1, 0] : Mat 2 2 ℝ) ^ 2 = -1 := by
    ext i j; fin_cases i <;> fin_cases j <;> simp [pow_two]
  have h3 : (!![0, 1; -1, 0] : Mat 2 2 ℝ) ^ 3 = -!![0, 1; -1, 0] := by rw [pow_succ, h2]; simp
  have h4 : (!![0, 1; -1, 0] : Mat 2 2 ℝ) ^ 4 = 1 := by rw [show 4 = 2 * 2 from rfl, pow_mul, h2]; simp
  simp only [sum_range_succ, sum_range_zero, h2, h3, h4, pow_zero, pow_one, Nat.factorial]
  ext i j
  fin_cases i <;> fin_cases j <;> simp <;> ring

example (x : Vec 1 ℝ) (u : Vec 1 ℝ) :
    HasDerivAt (fun dt => rk4 (fun s x u => fun i => Real.sin (x i) + s * u i) 3 x u dt) (fun i => Real.sin (x i) + 3 * u i) 0 :=
  (C44_consistent (fun s x u => fun i => Real.sin (x i) + s * u i) 3 x u (by fun_prop)).2

/-- C50, C61: the residual at time 0 (horizon of length zero), and the sweep at any time, for the scalar problem. -/
example (x : Vec 1 ℝ) (U : Fin 3 → Vec 1 ℝ) (i : Fin 3) : dhduList lq eulerOde (defaultConfig : Config ℝ) 0 x U i = U i + x :=
  (C50_initial lq eulerOde defaultConfig euler_zeroStep x U).2 i

example : ∃ s u, setup Gmres.realDense lq (defaultConfig : Config ℝ) 3 = .ok (s, u) ∧ (∀ i, s.uList i = u) ∧ s.deltaU = 0 := by
  obtain ⟨s, u, h1, h2, h3, -⟩ := C50_setup lq eulerOde defaultConfig Gmres.realDense euler_zeroStep 3
  exact ⟨s, u, h1, h2, h3⟩

example (t : ℝ) (x : Vec 1 ℝ) (U : Fin 3 → Vec 1 ℝ) : ∃ (h : ℝ) (xs lam : ℕ → Vec 1 ℝ), xs 0 = x ∧
    (∀ i : Fin 3, xs (i + 1) = euler lq.stateEq (t + (i : ℕ) * h) (xs i) (U i) h) ∧ lam 3 = xs 3 ∧
    ∀ i : Fin 3, dhduList lq eulerOde (defaultConfig : Config ℝ) t x U i = U i + lam (i + 1) := by
  obtain ⟨h, xs, lam, -, h2, h3, h4, -, h6⟩ := C61_sweep lq eulerOde defaultConfig t x U
  exact ⟨h, xs, lam, h2, h3, h4, h6⟩

/-- C53 -/
example : flatten (segment (N := 3) (m := 2) (![1, 2, 3, 4, 5, 6] : Vec 6 ℝ)) = (![1, 2, 3, 4, 5, 6] : Vec 6 ℝ) := C53_flatten_segment (N := 3) (m := 2) _
example (U : Fin 3 → Vec 2 ℝ) : flatten U ⟨5, by norm_num⟩ = U 2 1 := C53_index U 2 1 (by norm_num)

end Nmpc.Cgmres
