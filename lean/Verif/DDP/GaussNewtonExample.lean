import Verif.DDP.GaussNewtonSharp

/-!
# C119: examples
-/

namespace Nmpc.DDP

open Matrix Finset

/-- The configuration of the examples: the defaults without initial regularisation. -/
noncomputable def noRegConfig (as : List ℝ) (maxIter : ℤ) : Config ℝ := { defaultConfig (1 :: as) maxIter 1 with initialLambda := 0 }

/-- C119: minimise `u²/2 + x/8` with `x = u²`: from inputs near the solution `0` the error after `k` steps is at most `(3/4)^k` times the
initial one. -/
example (as : List ℝ) (lim) : ∃ q : ℝ, 0 < q ∧ ∀ (k : ℤ) (o : Obj 1 ℝ) (scratch) (u : ℝ),
    trajDist (fun _ => 1) 0 1 1 (foldTraj (1 / 8) 0) (foldTraj (1 / 8) u) < q →
    ∃ st fin, NearRun exactLLT (fold (1 / 8)) lim 1 (noRegConfig as k) o 0 scratch ![0] [⟨1, ![u]⟩] st fin ∧
      trajDist (fun _ => 1) 0 1 1 (foldTraj (1 / 8) 0)
          (solve exactLLT (fold (1 / 8)).callbacks lim 1 (noRegConfig as k) o 0 scratch ![0] [⟨1, ![u]⟩]).1.control ≤
        (3 / 4) ^ st.length * trajDist (fun _ => 1) 0 1 1 (foldTraj (1 / 8) 0) (foldTraj (1 / 8) u) := by
  have hR := fold_regular (κ := 1 / 8) (r := 1 / 2) (by norm_num)
  obtain ⟨q, hq, h⟩ := C119_linear (L := exactLLT) (p := fold (1 / 8)) (cfg := noRegConfig as 0) (lim := lim) (κ := 3 / 4)
    exactLLT_exact rfl rfl (by simp only [noRegConfig, defaultConfig, lit_real]; norm_num)
    (by simp only [noRegConfig, defaultConfig, lit_real]; norm_num) (by simp only [noRegConfig, defaultConfig, lit_real]; norm_num)
    rfl rfl rfl (by norm_num) (by norm_num) (by norm_num) (by positivity)
    (by simp only [noRegConfig, defaultConfig]; norm_num [abs_of_pos]) (foldTraj_isTrajectory 0) hR
    (by norm_num [abs_of_pos]) (by norm_num)
  refine ⟨q, hq, fun k o scratch u hu => h k o scratch [⟨1, ![u]⟩] (foldTraj (1 / 8) u) rfl ?_ (foldTraj_isTrajectory u) rfl hu⟩
  intro i hi
  have : i = 0 := by simpa using hi
  subst this; rfl

/-- C119: without the terminal cost the costates vanish, and the convergence is quadratic although the dynamics are nonlinear. -/
example (as : List ℝ) (lim) : ∃ C q : ℝ, 0 < C ∧ 0 < q ∧ C * q ≤ 1 / 2 ∧ ∀ (k : ℤ) (o : Obj 1 ℝ) (scratch) (u : ℝ),
    trajDist (fun _ => 1) 0 1 1 (foldTraj 0 0) (foldTraj 0 u) < q →
    ∃ st fin, NearRun exactLLT (fold 0) lim 1 (noRegConfig as k) o 0 scratch ![0] [⟨1, ![u]⟩] st fin ∧
      C * trajDist (fun _ => 1) 0 1 1 (foldTraj 0 0)
          (solve exactLLT (fold 0).callbacks lim 1 (noRegConfig as k) o 0 scratch ![0] [⟨1, ![u]⟩]).1.control ≤
        (C * trajDist (fun _ => 1) 0 1 1 (foldTraj 0 0) (foldTraj 0 u)) ^ 2 ^ st.length := by
  have hR := fold_regular (κ := 0) (r := 1 / 2) (by norm_num)
  obtain ⟨C, q, hC, hq, hCq, h⟩ := C119_quadratic (L := exactLLT) (p := fold 0) (cfg := noRegConfig as 0) (lim := lim)
    exactLLT_exact rfl rfl (by simp only [noRegConfig, defaultConfig, lit_real]; norm_num)
    (by simp only [noRegConfig, defaultConfig, lit_real]; norm_num) (by simp only [noRegConfig, defaultConfig, lit_real]; norm_num)
    rfl rfl rfl (by norm_num) (by norm_num) (by norm_num) (by positivity)
    (by simp only [noRegConfig, defaultConfig]; norm_num) (foldTraj_isTrajectory 0) hR (by simp)
  refine ⟨C, q, hC, hq, hCq, fun k o scratch u hu =>
    h k o scratch [⟨1, ![u]⟩] (foldTraj 0 u) rfl ?_ (foldTraj_isTrajectory u) rfl hu⟩
  intro i hi
  have : i = 0 := by simpa using hi
  subst this; rfl

/-- C119: with `κ = 1` the cost `3/2 u²` is convex in the input, but from `u = 1` the full step (to `-2`) is not taken. -/
example (as : List ℝ) (lim) (o : Obj 1 ℝ) (scratch) :
    (solve exactLLT (fold 1).callbacks lim 1 (noRegConfig as 1) o 0 scratch ![0] [⟨1, ![1]⟩]).1.control ≠ foldTraj 1 (-(2 * 1 * 1)) := by
  intro h
  have := (C119_sharp (κ := 1) (u := 1) (cfg := noRegConfig as 1) (lim := lim) exactLLT_exact rfl rfl rfl rfl rfl rfl (by norm_num)
    (by norm_num) (by simp only [noRegConfig, defaultConfig, lit_real]; norm_num) o scratch).2.1 h
  simp only [noRegConfig, defaultConfig] at this
  norm_num at this

end Nmpc.DDP
